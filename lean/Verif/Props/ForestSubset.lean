import Verif.Props.Limits

/-! # Property C183: a random forest only ever looks at one fixed set of attributes

Every node of every tree of a random forest asks the random engine for the attribute positions
with the same seed and the same number of attributes, and gets the same answer. -/

set_option linter.unusedSectionVars false

namespace Verif
open Dbl

variable {F : Type} [Dbl F]

/-! ## changing attributes nobody looks at -/

/-- `g` changes neither class labels nor the number of attributes -/
structure KeepsShape (g : Inst F → Inst F) : Prop where
  label : ∀ x, (g x).label = x.label
  size : ∀ x, (g x).attributeSize = x.attributeSize

/-- `g` keeps the attribute at position `i` -/
def KeepsAt (g : Inst F → Inst F) (i : Nat) : Prop := ∀ x, (g x).getAttribute i = x.getAttribute i

section
variable {g : Inst F → Inst F}

theorem KeepsAt.contAt {i : Nat} (h : KeepsAt g i) (x : Inst F) : (g x).contAt i = x.contAt i := by
  unfold Inst.contAt; rw [h x]

theorem KeepsAt.discAt {i : Nat} (h : KeepsAt g i) (x : Inst F) : (g x).discAt i = x.discAt i := by
  unfold Inst.discAt; rw [h x]

theorem KeepsAt.indexAt {i : Nat} (h : KeepsAt g i) (x : Inst F) : (g x).indexAt i = x.indexAt i := by
  unfold Inst.indexAt; rw [h x]

theorem keeps_classLabels (hg : KeepsShape g) (l : IList F) : IList.getClassLabels (l.map g) = IList.getClassLabels l := by
  rw [getClassLabels_eq, getClassLabels_eq, List.map_map]
  exact List.map_congr_left (fun x _ => hg.label x)

theorem keeps_distinct (hg : KeepsShape g) (l : IList F) :
    IList.getDistinctClassLabels (l.map g) = IList.getDistinctClassLabels l := by
  unfold IList.getDistinctClassLabels
  rw [List.foldl_map]
  simp only [hg.label]

theorem keeps_classDist (hg : KeepsShape g) (l : IList F) : IList.classDistribution (l.map g) = IList.classDistribution l := by
  unfold IList.classDistribution
  rw [List.foldl_map]
  simp only [hg.label]

theorem keeps_atR {α β : Type} (f : α → β) (l : List α) (k : Nat) : atR (l.map f) k = (atR l k).map f := by
  unfold atR
  rw [List.getElem?_map]
  cases l[k]? <;> rfl

theorem keeps_mapM {α : Type} (k : α → Res F) (f : α → α) (hk : ∀ x, k (f x) = k x) (l : List α) :
    (l.map f).mapM (fun x => do let v ← k x; pure (v, x)) =
      (l.mapM (fun x => do let v ← k x; pure (v, x))).map (List.map (fun p : F × α => (p.1, f p.2))) := by
  induction l with
  | nil => rfl
  | cons x l ih =>
    rw [List.map_cons, List.mapM_cons, List.mapM_cons, hk, ih]
    cases k x with
    | error e => rfl
    | ok v =>
      simp only [res_bind_ok]
      generalize l.mapM (fun x => do let v ← k x; pure (v, x)) = r
      cases r <;> rfl

theorem keeps_sort {i : Nat} (hi : KeepsAt g i) (l : IList F) :
    IList.sortByAttribute (l.map g) i = (l.sortByAttribute i).map (List.map g) := by
  unfold IList.sortByAttribute
  rw [keeps_mapM (fun x : Inst F => x.contAt i) g hi.contAt l]
  cases l.mapM (fun x => do let v ← x.contAt i; pure (v, x)) with
  | error e => rfl
  | ok ks =>
    simp only [Except.map, res_bind_ok, res_pure]
    rw [stableSort_map (fun p : F × Inst F => (p.1, g p.2)) (fun p q => p.1 <. q.1) _ _ (fun _ _ _ _ => rfl),
      List.map_map, List.map_map]
    rfl

theorem keeps_valueList {i : Nat} (hi : KeepsAt g i) (l : IList F) :
    IList.getAttributeValueList (l.map g) i = l.getAttributeValueList i := by
  unfold IList.getAttributeValueList
  rw [List.foldlM_map]
  simp only [hi.discAt]

theorem keeps_attributeDist (hg : KeepsShape g) {i : Nat} (hi : KeepsAt g i) (l : IList F) :
    IList.attributeClassDistribution (l.map g) i = l.attributeClassDistribution i := by
  unfold IList.attributeClassDistribution
  rw [keeps_valueList hi]
  simp only [List.foldlM_map, hi.discAt, hg.label]

theorem keeps_indexedDist (hg : KeepsShape g) {i : Nat} (hi : KeepsAt g i) (l : IList F) (k : Int) :
    IList.discreteIndexedAttributeClassDistribution (l.map g) i k = l.discreteIndexedAttributeClassDistribution i k := by
  unfold IList.discreteIndexedAttributeClassDistribution
  simp only [List.foldlM_map, hi.indexAt, hg.label]

/-! ## the search -/

/-- the same search over changed data -/
def Node.Search.over (g : Inst F → Inst F) (s : Node.Search F) : Node.Search F := { s with data := s.data.map g }

theorem keeps_searchStep (hg : KeepsShape g) {i : Nat} (hi : KeepsAt g i) (s : Node.Search F) :
    Node.searchStep (s.over g) i = (Node.searchStep s i).map (Node.Search.over g) := by
  unfold Node.searchStep Node.Search.over
  simp only [keeps_atR]
  cases atR s.data 0 with
  | error e => rfl
  | ok x0 =>
    simp only [Except.map, res_bind_ok]
    rw [hi x0]
    cases x0.getAttribute i with
    | error e => rfl
    | ok a =>
      simp only [res_bind_ok]
      unfold Node.searchKind
      split
      · cases a.getMaxIndex with
        | error e => rfl
        | ok m =>
          simp only [res_bind_ok, Node.searchIndexed]
          have : Node.indexedStep (s.data.map g) i = Node.indexedStep s.data i := by
            funext st k
            unfold Node.indexedStep
            rw [keeps_indexedDist hg hi, List.length_map]
          rw [this]
          cases (List.range m.toNat).foldlM (Node.indexedStep s.data i) (s.classDist, s.best) <;> rfl
      · split
        · simp only [Node.searchDiscrete, Node.entropyForDiscreteAttribute, keeps_attributeDist hg hi, List.length_map]
          cases s.data.attributeClassDistribution i <;> rfl
        · split
          · simp only [Node.searchContinuous, keeps_sort hi]
            cases s.data.sortByAttribute i with
            | error e => rfl
            | ok sorted =>
              simp only [Except.map, res_bind_ok, keeps_classDist hg, List.length_map, List.foldlM_map]
              have : (fun (t : Node.Sweep F) (x : Inst F) => Node.sweepStep sorted.length i t (g x)) =
                  Node.sweepStep sorted.length i := by
                funext t x
                unfold Node.sweepStep
                rw [hi.contAt, hg.label]
              rw [this]
              cases sorted.foldlM (Node.sweepStep sorted.length i)
                (⟨none, sorted.classDistribution, DD.empty, s.best⟩ : Node.Sweep F) <;> rfl
          · rfl

theorem keeps_search (hg : KeepsShape g) (is : List Nat) (hi : ∀ i ∈ is, KeepsAt g i) (s : Node.Search F) :
    is.foldlM Node.searchStep (s.over g) = (is.foldlM Node.searchStep s).map (Node.Search.over g) := by
  induction is generalizing s with
  | nil => rfl
  | cons i is ih =>
    rw [List.foldlM_cons, List.foldlM_cons, keeps_searchStep hg (hi i (by simp))]
    cases Node.searchStep s i with
    | error e => rfl
    | ok s1 => exact ih (fun j hj => hi j (by simp [hj])) s1

/-! ## the partitions -/

theorem keeps_addTo (ps : Parts F) (k : Nat) (x : Inst F) :
    Parts.addTo (ps.map (List.map g)) k (g x) = (Parts.addTo ps k x).map (List.map (List.map g)) := by
  unfold Parts.addTo
  rw [keeps_atR]
  cases atR ps k with
  | error e => rfl
  | ok p => simp [Except.map, IList.add]

theorem keeps_parts {f : Parts F → Inst F → Res (Parts F)}
    (hf : ∀ ps x, f (ps.map (List.map g)) (g x) = (f ps x).map (List.map (List.map g))) (l : IList F) (ps : Parts F) :
    (l.map g).foldlM f (ps.map (List.map g)) = (l.foldlM f ps).map (List.map (List.map g)) := by
  induction l generalizing ps with
  | nil => rfl
  | cons x l ih =>
    rw [List.map_cons, List.foldlM_cons, List.foldlM_cons, hf]
    cases f ps x with
    | error e => rfl
    | ok qs => exact ih qs

theorem keeps_byDiscrete {i : Nat} (hi : KeepsAt g i) (l : IList F) :
    Parts.byDiscrete (l.map g) i = (Parts.byDiscrete l i).map (List.map (List.map g)) := by
  unfold Parts.byDiscrete
  rw [keeps_valueList hi]
  cases l.getAttributeValueList i with
  | error e => rfl
  | ok vs =>
    simp only [res_bind_ok]
    have e0 : vs.map (fun _ => ([] : IList F)) = (vs.map (fun _ => ([] : IList F))).map (List.map g) := by simp
    conv => lhs; rw [e0]
    refine keeps_parts ?_ l _
    intro ps x
    rw [hi.discAt]
    cases x.discAt i with
    | error e => rfl
    | ok v => exact keeps_addTo _ _ _

theorem keeps_byIndexed {i : Nat} (hi : KeepsAt g i) (l : IList F) (k : Int) :
    Parts.byIndexed (l.map g) i k = (Parts.byIndexed l i k).map (List.map (List.map g)) := by
  refine keeps_parts ?_ l [[], []]
  intro ps x
  rw [hi.indexAt]
  cases x.indexAt i with
  | error e => rfl
  | ok v =>
    simp only [res_bind_ok]
    split <;> exact keeps_addTo _ _ _

theorem keeps_byThreshold {i : Nat} (hi : KeepsAt g i) (l : IList F) (t : F) :
    Parts.byThreshold (l.map g) i t = (Parts.byThreshold l i t).map (List.map (List.map g)) := by
  refine keeps_parts ?_ l [[], []]
  intro ps x
  rw [hi.contAt]
  cases x.contAt i with
  | error e => rfl
  | ok v =>
    simp only [res_bind_ok]
    split <;> exact keeps_addTo _ _ _

theorem keeps_children {i : Nat} (hi : KeepsAt g i) (rec : IList F → Cond F → Res (Node F)) (data : IList F)
    (b : Node.Best F) (a : Attr F) :
    Node.childrenKind rec (data.map g) b i a = Node.childrenKind (fun p c => rec (p.map g) c) data b i a := by
  unfold Node.childrenKind
  split
  · cases a.getMaxIndex with
    | error e => rfl
    | ok m =>
      simp only [res_bind_ok, Node.childrenIndexed, keeps_byIndexed hi]
      cases Parts.byIndexed data i b.k with
      | error e => rfl
      | ok ps =>
        simp only [Except.map, res_bind_ok, keeps_atR]
        cases atR ps 0 with
        | error e => rfl
        | ok p0 =>
          simp only [res_bind_ok]
          cases atR ps 1 <;> rfl
  · split
    · simp only [Node.childrenDiscrete, keeps_valueList hi, keeps_byDiscrete hi]
      cases data.getAttributeValueList i with
      | error e => rfl
      | ok vs =>
        simp only [res_bind_ok]
        cases Parts.byDiscrete data i with
        | error e => rfl
        | ok ps =>
          simp only [Except.map, res_bind_ok]
          congr 1
          funext p
          unfold Node.childDiscrete
          rw [keeps_atR]
          cases atR ps p.2 <;> rfl
    · split
      · simp only [Node.childrenContinuous, keeps_byThreshold hi]
        cases Parts.byThreshold data i b.v with
        | error e => rfl
        | ok ps =>
          simp only [Except.map, res_bind_ok, keeps_atR]
          cases atR ps 0 with
          | error e => rfl
          | ok p0 =>
            simp only [res_bind_ok]
            cases atR ps 1 <;> rfl
      · rfl

theorem searchStep_attr {S : List Nat} {s s' : Node.Search F} {i : Nat} (hi : i ∈ S)
    (hs : ∀ j, s.best.attr = some j → j ∈ S) (h : Node.searchStep s i = .ok s') : ∀ j, s'.best.attr = some j → j ∈ S := by
  unfold Node.searchStep at h
  rw [bind_ok_iff] at h
  obtain ⟨x0, _, h⟩ := h
  rw [bind_ok_iff] at h
  obtain ⟨a, _, h⟩ := h
  unfold Node.searchKind at h
  have hcase : ∀ {o o' : Option Nat}, (∀ j, o = some j → j ∈ S) → (o' = o ∨ o' = some i) → ∀ j, o' = some j → j ∈ S := by
    intro o o' h1 h2 j hj
    rcases h2 with h2 | h2
    · exact h1 j (by rw [← h2]; exact hj)
    · rw [h2] at hj; cases hj; exact hi
  split at h
  · rw [bind_ok_iff] at h
    obtain ⟨m, _, h⟩ := h
    unfold Node.searchIndexed at h
    rw [bind_ok_iff] at h
    obtain ⟨r, hr, h⟩ := h
    cases h
    exact foldlM_keeps (P := fun st : DD × Node.Best F => ∀ j, st.2.attr = some j → j ∈ S)
        (fun b a b' h1 hb => hcase h1 (indexedStep_best hb).1) _ _ _ hr hs
  · split at h
    · unfold Node.searchDiscrete at h
      rw [bind_ok_iff] at h
      obtain ⟨e, _, h⟩ := h
      cases h
      refine hcase hs ?_
      simp only; split <;> simp
    · split at h
      · unfold Node.searchContinuous at h
        rw [bind_ok_iff] at h
        obtain ⟨sorted, hsort, h⟩ := h
        rw [bind_ok_iff] at h
        obtain ⟨r, hr, h⟩ := h
        cases h
        exact foldlM_keeps (P := fun st : Node.Sweep F => ∀ j, st.best.attr = some j → j ∈ S)
            (fun b a b' h1 hb => hcase h1 (sweepStep_best hb).1) _ _ _ hr hs
      · cases h; exact hs

theorem search_attr {S : List Nat} {s s' : Node.Search F} {is : List Nat} (hi : ∀ i ∈ is, i ∈ S)
    (hs : ∀ j, s.best.attr = some j → j ∈ S) (h : is.foldlM Node.searchStep s = .ok s') :
    ∀ j, s'.best.attr = some j → j ∈ S := by
  induction is generalizing s with
  | nil => cases h; exact hs
  | cons i is ih =>
    rw [List.foldlM_cons, bind_ok_iff] at h
    obtain ⟨s1, h1, h⟩ := h
    exact ih (fun j hj => hi j (by simp [hj])) (searchStep_attr (hi i (by simp)) hs h1) h

theorem tried_subset {size : Int} {arr : Nat → List Nat} {n : Nat} (hs : size < n) {is : List Nat}
    (h : Node.triedIndices (some (size, arr)) n = .ok is) : ∀ i ∈ is, i ∈ (arr n).take size.toNat := by
  unfold Node.triedIndices at h
  simp only at h
  rw [if_pos hs] at h
  have : ∀ (k : Nat), k ≤ size.toNat → ∀ is, (List.range k).foldlM (fun r j => do
        let i ← atR (arr n) j
        pure (r ++ [i])) ([] : List Nat) = (.ok is : Res (List Nat)) → ∀ i ∈ is, i ∈ (arr n).take size.toNat := by
    intro k
    induction k with
    | zero => intro _ is h; cases h; simp
    | succ k ih =>
      intro hk is h
      rw [List.range_succ, foldlM_append', bind_ok_iff] at h
      obtain ⟨r, hr, h⟩ := h
      simp only [List.foldlM_cons, List.foldlM_nil, bind_ok_iff] at h
      obtain ⟨q, ⟨i, hi, hq⟩, h⟩ := h
      cases hq
      cases h
      intro j hj
      rcases List.mem_append.1 hj with hj | hj
      · exact ih (by omega) r hr j hj
      · rw [List.mem_singleton.1 hj]
        exact List.mem_iff_getElem?.2 ⟨k, by rw [List.getElem?_take_of_lt (by omega)]; exact atR_eq_ok.1 hi⟩
  exact this _ le_rfl is h

theorem search_mem {is : List Nat} {data : IList F} {cd : DD} {e v : F} {s : Node.Search F}
    (h : is.foldlM Node.searchStep ⟨data, cd, ⟨e, none, 0, v⟩⟩ = .ok s) : ∀ x ∈ s.data, x ∈ data := by
  have hN : ∀ i ∈ is, i < is.sum + 1 := fun i hi => Nat.lt_succ_of_le (List.le_sum_of_mem hi)
  have := (search_inv (data := data) hN ⟨List.Perm.refl _, le_refl _, by intro i hi; cases hi⟩ h).perm
  exact fun x hx => this.mem_iff.1 hx

theorem keeps_grow (hg : KeepsShape g) {param : Node.SubsetParam} {st : Bool} {n : Nat} {S : List Nat}
    (hS : ∀ is, Node.triedIndices param n = .ok is → ∀ i ∈ is, i ∈ S) (hk : ∀ i ∈ S, KeepsAt g i) :
    ∀ (fuel : Nat) (data : IList F) (c : Cond F), (∀ x ∈ data, x.attributeSize = n) →
      Node.grow param st fuel (data.map g) c = Node.grow param st fuel data c := by
  intro fuel
  induction fuel with
  | zero => intro data c _; rfl
  | succ fuel ih =>
    intro data c hn
    rw [Node.grow, Node.grow]
    simp only [keeps_classLabels hg, keeps_distinct hg]
    split
    · rfl
    · split
      · rfl
      · unfold Node.splitNode
        rw [keeps_atR]
        cases h0 : atR data 0 with
        | error e => rfl
        | ok x0 =>
          have hx0 : x0 ∈ data := List.mem_of_getElem? (by simpa using h0)
          simp only [Except.map, res_bind_ok, hg.size, hn x0 hx0]
          cases his : Node.triedIndices param n with
          | error e => rfl
          | ok is =>
            simp only [res_bind_ok]
            have hse := keeps_search hg is (fun i hi => hk i (hS is his i hi))
              (⟨data, data.classDistribution, ⟨data.classDistribution.entropy, none, 0, Dbl.zero⟩⟩ : Node.Search F)
            simp only [Node.Search.over, keeps_classDist hg] at hse ⊢
            rw [hse]
            cases hs : is.foldlM Node.searchStep
                (⟨data, data.classDistribution, ⟨data.classDistribution.entropy, none, 0, Dbl.zero⟩⟩ : Node.Search F) with
            | error e => rfl
            | ok s =>
              have hat := search_attr (S := S) (hS is his) (by intro j hj; cases hj) hs
              have hmem : ∀ x ∈ s.data, x ∈ data := search_mem hs
              simp only [Except.map, res_bind_ok]
              unfold Node.finish
              have hob : (s.over g).best = s.best := rfl
              have hod : (s.over g).data = s.data.map g := rfl
              rw [hob, hod]
              cases hb : s.best.attr with
              | none => rfl
              | some i =>
                have hi := hk i (hat i hb)
                simp only [keeps_atR]
                cases atR s.data 0 with
                | error e => rfl
                | ok x1 =>
                  simp only [Except.map, res_bind_ok]
                  rw [hi x1]
                  cases x1.getAttribute i with
                  | error e => rfl
                  | ok a =>
                    simp only [res_bind_ok]
                    rw [keeps_children hi, childrenKind_congr (fun p c hp => ih p c (fun x hx => hn x (hmem x (hp x hx))))]

end

/-! ## the attributes a tree asks about -/

/-- below `n`, every condition is about an attribute in `S` -/
inductive AsksOnly (S : List Nat) : Node F → Prop
  | mk (c : Cond F) (leaf : Bool) (lab : String) (d : DD) (ch : List (Node F))
      (at_ : ∀ m ∈ ch, ∃ i ∈ S, m.cond.attr = (i : Int)) (below : ∀ m ∈ ch, AsksOnly S m) :
      AsksOnly S (.mk c leaf lab d ch)

theorem childrenKind_from {rec : IList F → Cond F → Res (Node F)} {data : IList F} {b : Node.Best F} {i : Nat} {a : Attr F}
    {ch : List (Node F)} (h : Node.childrenKind rec data b i a = .ok ch) :
    ∀ m ∈ ch, ∃ p c, (∀ x ∈ p, x ∈ data) ∧ c.attr = (i : Int) ∧ rec p c = .ok m := by
  have hat : ∀ {ps : Parts F} {k : Nat} {p : IList F}, (∀ q ∈ ps, ∀ y ∈ q, y ∈ data) → atR ps k = .ok p → ∀ y ∈ p, y ∈ data :=
    fun hps hp => hps _ (List.mem_of_getElem? (by simpa using hp))
  unfold Node.childrenKind at h
  split at h
  · rw [bind_ok_iff] at h
    obtain ⟨k, _, h⟩ := h
    unfold Node.childrenIndexed at h
    simp only [bind_ok_iff] at h
    obtain ⟨ps, hp, p0, h0, c0, hc0, p1, h1, c1, hc1, h⟩ := h
    cases h
    have hps : ∀ q ∈ ps, ∀ y ∈ q, y ∈ data := parts_mem (by
      intro ps x ps' h
      rw [bind_ok_iff] at h
      obtain ⟨v, _, h⟩ := h
      split at h
      · exact ⟨_, h⟩
      · exact ⟨_, h⟩) hp (fun x hx => hx) (by simp)
    intro m hm
    rcases List.mem_cons.1 hm with rfl | hm
    · exact ⟨p0, _, hat hps h0, rfl, hc0⟩
    · rw [List.mem_singleton.1 hm]
      exact ⟨p1, _, hat hps h1, rfl, hc1⟩
  · split at h
    · unfold Node.childrenDiscrete at h
      simp only [bind_ok_iff] at h
      obtain ⟨vs, hv, ps, hp, h⟩ := h
      have hps : ∀ q ∈ ps, ∀ y ∈ q, y ∈ data := by
        unfold Parts.byDiscrete at hp
        rw [hv, res_bind_ok] at hp
        exact parts_mem (by
          intro ps x ps' h
          rw [bind_ok_iff] at h
          obtain ⟨v, _, h⟩ := h
          exact ⟨_, h⟩) hp (fun x hx => hx) (by
            intro p hp y hy
            obtain ⟨_, _, rfl⟩ := List.mem_map.1 hp
            cases hy)
      intro m hm
      obtain ⟨v, _, hv⟩ := mapM_ok_mem h hm
      unfold Node.childDiscrete at hv
      rw [bind_ok_iff] at hv
      obtain ⟨p0, h0, hv⟩ := hv
      exact ⟨p0, _, hat hps h0, rfl, hv⟩
    · split at h
      · unfold Node.childrenContinuous at h
        simp only [bind_ok_iff] at h
        obtain ⟨ps, hp, p0, h0, c0, hc0, p1, h1, c1, hc1, h⟩ := h
        cases h
        have hps : ∀ q ∈ ps, ∀ y ∈ q, y ∈ data := parts_mem (by
          intro ps x ps' h
          rw [bind_ok_iff] at h
          obtain ⟨v, _, h⟩ := h
          split at h
          · exact ⟨_, h⟩
          · exact ⟨_, h⟩) hp (fun x hx => hx) (by simp)
        intro m hm
        rcases List.mem_cons.1 hm with rfl | hm
        · exact ⟨p0, _, hat hps h0, rfl, hc0⟩
        · rw [List.mem_singleton.1 hm]
          exact ⟨p1, _, hat hps h1, rfl, hc1⟩
      · cases h; simp

theorem grow_asksOnly {param : Node.SubsetParam} {st : Bool} {n : Nat} {S : List Nat}
    (hS : ∀ is, Node.triedIndices param n = .ok is → ∀ i ∈ is, i ∈ S) :
    ∀ (fuel : Nat) (data : IList F) (c : Cond F) (t : Node F), (∀ x ∈ data, x.attributeSize = n) →
      Node.grow param st fuel data c = .ok t → AsksOnly S t := by
  intro fuel
  induction fuel with
  | zero => intro data c t _ h; cases h
  | succ fuel ih =>
    intro data c t hn h
    rw [Node.grow] at h
    simp only at h
    split at h
    · cases h; exact .mk _ _ _ _ _ (by simp) (by simp)
    · split at h
      · cases h; exact .mk _ _ _ _ _ (by simp) (by simp)
      · unfold Node.splitNode at h
        simp only [bind_ok_iff] at h
        obtain ⟨x0, hx0, is, his, s, hs, h⟩ := h
        rw [hn x0 (List.mem_of_getElem? (by simpa using hx0))] at his
        have hat := search_attr (S := S) (hS is his) (by intro j hj; cases hj) hs
        have hmem := search_mem hs
        unfold Node.finish at h
        split at h
        · cases h; exact .mk _ _ _ _ _ (by simp) (by simp)
        · rename_i i hb
          simp only [bind_ok_iff] at h
          obtain ⟨y0, _, a, _, ch, hch, h⟩ := h
          cases h
          have hsh := childrenKind_from hch
          refine .mk _ _ _ _ _ ?_ ?_
          · intro m hm
            obtain ⟨p, c', _, hc, hr⟩ := hsh m hm
            exact ⟨i, hat i hb, by rw [grow_cond hr, hc]⟩
          · intro m hm
            obtain ⟨p, c', hp, _, hr⟩ := hsh m hm
            exact ih p c' m (fun x hx => hn x (hmem x (hp x hx))) hr

/-! ## queries -/

/-- the two instances may only differ in attributes outside `S` (and in the class label) -/
structure SameQuery (S : List Nat) (x y : Inst F) : Prop where
  labels : x.possible = y.possible
  at_ : ∀ i ∈ S, x.attrs[i]? = y.attrs[i]?

theorem SameQuery.satisfy {S : List Nat} {x y : Inst F} (h : SameQuery S x y) {c : Cond F} (hc : ∃ i ∈ S, c.attr = (i : Int)) :
    c.satisfy x = c.satisfy y := by
  obtain ⟨i, hi, e⟩ := hc
  have : c.attrOf x = c.attrOf y := by
    unfold Cond.attrOf Inst.getAttribute atR
    rw [e]
    simp only [Int.toNat_natCast, h.at_ i hi]
  unfold Cond.satisfy
  simp only [this]

theorem SameQuery.isComposite {S : List Nat} {x y : Inst F} (h : SameQuery S x y) : x.isComposite = y.isComposite := by
  unfold Inst.isComposite; rw [h.labels]

theorem SameQuery.possibleLabels {S : List Nat} {x y : Inst F} (h : SameQuery S x y) (hc : x.isComposite = true) :
    x.possibleLabels = y.possibleLabels := by
  unfold Inst.isComposite at hc
  unfold Inst.possibleLabels
  rw [← h.labels]
  cases hp : x.possible with
  | none => rw [hp] at hc; cases hc
  | some ls => rfl

theorem plainIn_same {S : List Nat} {x y : Inst F} (h : SameQuery S x y) (s : String) : ∀ (ch : List (Node F)),
    (∀ m ∈ ch, ∃ i ∈ S, m.cond.attr = (i : Int)) → (∀ m ∈ ch, m.predictPlain x = m.predictPlain y) →
    Node.predictPlainIn s ch x = Node.predictPlainIn s ch y := by
  intro ch
  induction ch with
  | nil => intro _ _; rw [Node.predictPlainIn, Node.predictPlainIn]
  | cons m ch ih =>
    intro h1 h2
    rw [Node.predictPlainIn, Node.predictPlainIn, h.satisfy (h1 m (by simp)), h2 m (by simp),
      ih (fun k hk => h1 k (by simp [hk])) (fun k hk => h2 k (by simp [hk]))]

theorem compositeIn_same {S : List Nat} {x y : Inst F} (h : SameQuery S x y) (s : String) : ∀ (ch : List (Node F)),
    (∀ m ∈ ch, ∃ i ∈ S, m.cond.attr = (i : Int)) → (∀ m ∈ ch, m.predictComposite x = m.predictComposite y) →
    Node.predictCompositeIn s ch x = Node.predictCompositeIn s ch y := by
  intro ch
  induction ch with
  | nil => intro _ _; rw [Node.predictCompositeIn, Node.predictCompositeIn]
  | cons m ch ih =>
    intro h1 h2
    rw [Node.predictCompositeIn, Node.predictCompositeIn, h.satisfy (h1 m (by simp)), h2 m (by simp),
      ih (fun k hk => h1 k (by simp [hk])) (fun k hk => h2 k (by simp [hk]))]

theorem plain_same {S : List Nat} {x y : Inst F} (h : SameQuery S x y) {t : Node F} (ht : AsksOnly S t) :
    t.predictPlain x = t.predictPlain y := by
  induction ht with
  | mk c leaf lab d ch at_ below ih =>
    rw [Node.predictPlain, Node.predictPlain, plainIn_same h lab ch at_ ih]

theorem composite_same {S : List Nat} {x y : Inst F} (h : SameQuery S x y) (hc : x.isComposite = true) {t : Node F}
    (ht : AsksOnly S t) : t.predictComposite x = t.predictComposite y := by
  induction ht with
  | mk c leaf lab d ch at_ below ih =>
    rw [Node.predictComposite, Node.predictComposite, h.possibleLabels hc, compositeIn_same h _ ch at_ ih]

theorem treePredict_same {S : List Nat} {x y : Inst F} (h : SameQuery S x y) {t : Node F} (ht : AsksOnly S t) :
    treePredict t x = treePredict t y := by
  unfold treePredict Node.predict
  rw [← h.isComposite]
  by_cases hc : x.isComposite = true
  · rw [if_pos hc, composite_same h hc ht, h.possibleLabels hc]
    simp [hc]
  · rw [if_neg hc, plain_same h ht]
    simp [hc]

theorem votes_same {S : List Nat} {x y : Inst F} (h : SameQuery S x y) {forest : List (Node F)}
    (hf : ∀ t ∈ forest, AsksOnly S t) : ensembleVotes forest x = ensembleVotes forest y := by
  have : ∀ (forest : List (Node F)) (d : DD), (∀ t ∈ forest, AsksOnly S t) →
      forest.foldlM (fun d t => do
        let p ← treePredict t x
        pure (d.addItem p)) d = (forest.foldlM (fun d t => do
        let p ← treePredict t y
        pure (d.addItem p)) d : Res DD) := by
    intro forest
    induction forest with
    | nil => intro d _; rfl
    | cons t forest ih =>
      intro d hf
      rw [List.foldlM_cons, List.foldlM_cons, treePredict_same h (hf t (by simp))]
      congr 1
      funext d'
      exact ih d' (fun k hk => hf k (by simp [hk]))
  exact this forest _ hf

/-! ## training -/

/-- the two training instances may only differ in attributes outside `S` (and in the labels that are only used in prediction) -/
structure SameTraining (S : List Nat) (x y : Inst F) : Prop where
  label : x.label = y.label
  size : x.attrs.length = y.attrs.length
  at_ : ∀ i ∈ S, x.attrs[i]? = y.attrs[i]?

/-- forget the attributes outside `S` -/
def forget (S : List Nat) (x : Inst F) : Inst F :=
  ⟨x.label, x.attrs.mapIdx (fun i a => if i ∈ S then a else .binary ""), none⟩

theorem forget_shape (S : List Nat) : KeepsShape (forget S : Inst F → Inst F) :=
  ⟨fun _ => rfl, fun x => by simp [forget, Inst.attributeSize]⟩

theorem forget_at {S : List Nat} {i : Nat} (hi : i ∈ S) : KeepsAt (forget S : Inst F → Inst F) i := by
  intro x
  unfold Inst.getAttribute forget atR
  rw [List.getElem?_mapIdx]
  simp only [hi, if_true]
  cases x.attrs[i]? <;> rfl

theorem SameTraining.forget {S : List Nat} {x y : Inst F} (h : SameTraining S x y) : forget S x = forget S y := by
  unfold Verif.forget
  rw [h.label]
  congr 1
  apply List.ext_getElem?
  intro i
  rw [List.getElem?_mapIdx, List.getElem?_mapIdx]
  by_cases hi : i ∈ S
  · simp only [hi, if_true, h.at_ i hi]
  · simp only [hi, if_false]
    have hsz := h.size
    by_cases hl : i < x.attrs.length
    · rw [List.getElem?_eq_getElem hl, List.getElem?_eq_getElem (by omega)]; rfl
    · rw [List.getElem?_eq_none (by omega), List.getElem?_eq_none (by omega)]

theorem forget_list {S : List Nat} {l l' : IList F} (h : List.Forall₂ (SameTraining S) l l') :
    l.map (forget S) = l'.map (forget S) := by
  induction h with
  | nil => rfl
  | cons h1 _ ih => rw [List.map_cons, List.map_cons, h1.forget, ih]

theorem bootstrap_map (g : Inst F → Inst F) (l : IList F) (draws : List Nat) :
    IList.bootstrap (l.map g) draws = (IList.bootstrap l draws).map g := by
  unfold IList.bootstrap
  rw [List.map_filterMap]
  congr 1
  funext i
  rw [List.getElem?_map]

theorem bootstrap_mem {l : IList F} {draws : List Nat} {x : Inst F} (h : x ∈ IList.bootstrap l draws) : x ∈ l := by
  unfold IList.bootstrap at h
  obtain ⟨k, _, hk⟩ := List.mem_filterMap.1 h
  exact List.mem_of_getElem? hk

theorem forget_train {size : Int} {arr : Nat → List Nat} {n : Nat} (hs : size < n) {draws : Nat → List Nat} {old : List (Node F)}
    {T : IList F} {B : Int} (hn : ∀ x ∈ T, x.attributeSize = n) :
    ensembleTrain (some (size, arr)) draws old (T.map (forget ((arr n).take size.toNat))) B =
      ensembleTrain (some (size, arr)) draws old T B := by
  unfold ensembleTrain
  congr 1
  funext forest i
  simp only [bootstrap_map, List.length_map]
  rw [keeps_grow (forget_shape _) (fun is his => tried_subset hs his) (fun i hi => forget_at hi) _ _ _
    (fun x hx => hn x (bootstrap_mem hx))]

theorem train_asksOnly {size : Int} {arr : Nat → List Nat} {n : Nat} (hs : size < n) {draws : Nat → List Nat}
    {T : IList F} {B : Int} {forest : List (Node F)} (hn : ∀ x ∈ T, x.attributeSize = n)
    (h : ensembleTrain (some (size, arr)) draws [] T B = .ok forest) : ∀ t ∈ forest, AsksOnly ((arr n).take size.toNat) t := by
  refine foldlM_keeps (P := fun forest : List (Node F) => ∀ t ∈ forest, AsksOnly ((arr n).take size.toNat) t) ?_ _ _ _ h (by simp)
  intro f i f' hf hi
  rw [bind_ok_iff] at hi
  obtain ⟨t, ht, hi⟩ := hi
  cases hi
  intro u hu
  rcases List.mem_append.1 hu with hu | hu
  · exact hf u hu
  · rw [List.mem_singleton.1 hu]
    exact grow_asksOnly (fun is his => tried_subset hs his) _ _ _ _ (fun x hx => hn x (bootstrap_mem hx)) ht

/-- **C183** (what holds) the attributes a random forest with subset size `size` looks at are the first `size` positions of
one shuffled list: every condition in every tree is about one of them, changing other attributes of a
query changes neither the predicted class nor the class probabilities, and changing other attributes of the training data
gives the same forest. This holds for any number of trees, any data and any way of drawing the bootstrap samples. -/
theorem C183_fixed_subset {size : Int} {arr : Nat → List Nat} {n : Nat} {draws : Nat → List Nat} {T : IList F} {B : Int}
    {forest : List (Node F)} (hn : ∀ x ∈ T, x.attributeSize = n) (hs : size < n)
    (h : ensembleTrain (some (size, arr)) draws [] T B = .ok forest) :
    (∀ t ∈ forest, AsksOnly ((arr n).take size.toNat) t) ∧
    (∀ x y : Inst F, SameQuery ((arr n).take size.toNat) x y →
      ensemblePredict forest x = ensemblePredict forest y ∧ ensembleProbability forest x = ensembleProbability forest y) ∧
    (∀ T' : IList F, List.Forall₂ (SameTraining ((arr n).take size.toNat)) T T' →
      ensembleTrain (some (size, arr)) draws [] T' B = .ok forest) := by
  have ha := train_asksOnly hs hn h
  refine ⟨ha, ?_, ?_⟩
  · intro x y hxy
    unfold ensemblePredict ensembleProbability
    rw [votes_same hxy ha]
    exact ⟨rfl, rfl⟩
  · intro T' hT
    have hn' : ∀ x ∈ T', x.attributeSize = n := by
      intro y hy
      obtain ⟨k, hk, e⟩ := List.mem_iff_getElem.1 hy
      have hlen := hT.length_eq
      have := (List.forall₂_iff_get.1 hT).2 k (by omega) hk
      simp only [List.get_eq_getElem] at this
      rw [e] at this
      exact this.size.symm.trans (hn _ (List.getElem_mem _))
    rw [← h, ← forget_train hs hn, ← forget_train hs hn']
    rw [forget_list hT]

/-- **C183** (refuted) "the trees of a random forest draw their attributes independently, so that with enough trees every attribute
has an influence": for every forest trained with a subset smaller than the number of attributes, however
many trees it has, there is an attribute that has no influence, neither in training nor in prediction. -/
theorem C183_refuted {size : Int} {arr : Nat → List Nat} {n : Nat} {draws : Nat → List Nat} {T : IList F} {B : Int}
    {forest : List (Node F)} (hn : ∀ x ∈ T, x.attributeSize = n) (hs : size < n) (hpos : 0 ≤ size)
    (h : ensembleTrain (some (size, arr)) draws [] T B = .ok forest) :
    ∃ j < n, (∀ (x : Inst F) (a : Attr F),
        ensemblePredict forest { x with attrs := x.attrs.set j a } = ensemblePredict forest x ∧
        ensembleProbability forest { x with attrs := x.attrs.set j a } = ensembleProbability forest x) ∧
      ∀ f : Inst F → Attr F, ensembleTrain (some (size, arr)) draws [] (T.map (fun x => { x with attrs := x.attrs.set j (f x) })) B =
        .ok forest := by
  obtain ⟨_, hq, ht⟩ := C183_fixed_subset hn hs h
  have hj : ∃ j < n, j ∉ (arr n).take size.toNat := by
    by_contra hc
    push Not at hc
    have hsub : (List.range n) ⊆ (arr n).take size.toNat := fun j hj => hc j (List.mem_range.1 hj)
    have := (List.subperm_of_subset List.nodup_range hsub).length_le
    rw [List.length_range, List.length_take] at this
    omega
  obtain ⟨j, hjn, hj⟩ := hj
  have hset : ∀ (x : Inst F) (a : Attr F) (i : Nat), i ∈ (arr n).take size.toNat → (x.attrs.set j a)[i]? = x.attrs[i]? := by
    intro x a i hi
    rw [List.getElem?_set_ne]
    rintro rfl
    exact hj hi
  refine ⟨j, hjn, fun x a => hq _ _ ⟨rfl, hset x a⟩, fun f => ht _ ?_⟩
  clear hn h hq ht
  induction T with
  | nil => exact .nil
  | cons x T ih => exact .cons ⟨rfl, by simp, fun i hi => (hset x _ i hi).symm⟩ ih

/-- four instances: the first attribute is noise, the second decides -/
def exSecondDecides : IList XR :=
  [⟨"a", [.discrete "u", .discrete "p"], none⟩, ⟨"b", [.discrete "u", .discrete "q"], none⟩,
   ⟨"a", [.discrete "w", .discrete "p"], none⟩, ⟨"b", [.discrete "w", .discrete "q"], none⟩]

/-- the hypotheses are met, training succeeds; as the shuffled list begins with the first position, none of the three trees splits, and the
second attribute, which decides the class, has no influence; a list that begins with the second position gives trees
that are right -/
example : (∀ x ∈ exSecondDecides, x.attributeSize = 2) ∧ (0 : Int) ≤ 1 ∧ (1 : Int) < 2 ∧
    (do
      let f ← ensembleTrain (some (1, fun n => List.range n)) (fun i => [0, 1, 2, 3].rotate i) [] exSecondDecides 3
      let p ← ensemblePredict f ⟨"?", [.discrete "u", .discrete "p"], none⟩
      let q ← ensemblePredict f ⟨"?", [.discrete "u", .discrete "q"], none⟩
      pure (f.map Node.countNodes, p, q)) = (.ok ([1, 1, 1], "a", "a") : Res _) ∧
    (do
      let f ← ensembleTrain (some (1, fun n => (List.range n).reverse)) (fun i => [0, 1, 2, 3].rotate i) [] exSecondDecides 3
      let p ← ensemblePredict f ⟨"?", [.discrete "u", .discrete "p"], none⟩
      let q ← ensemblePredict f ⟨"?", [.discrete "u", .discrete "q"], none⟩
      pure (f.map Node.countNodes, p, q)) = (.ok ([3, 3, 3], "a", "b") : Res _) := by decide +kernel

end Verif
