import Verif.Spec.Limits
import Verif.Props.TreeProb
import Verif.Props.TreeUnits
import Verif.Props.Knn
import Verif.Props.TreeOrder

/-! # Property C159: how the classifiers are related at the ends of their parameter ranges -/

set_option linter.unusedSectionVars false

namespace Verif
open Dbl

variable {F : Type} [Dbl F]

/-! ## all instances are neighbours -/

/-- **C159** with as many neighbours as there are instances, k-NN is the dummy classifier -/
theorem C159_knn_all_neighbours (m : Knn F) (hk : m.data.length ≤ m.k) (x : Inst F) (hx : x.isComposite = false)
    (hd : ∀ y ∈ m.data, ∃ d, m.dist y x = .ok d) (hne : m.data ≠ []) :
    m.predict x = .ok (dummyPredict m.data.classDistribution x) ∧
    m.predictProbability x = .ok (dummyProbability m.data.classDistribution) := by
  have hc : candidates m.data x = m.data := by
    have : x.possible = none := by
      unfold Inst.isComposite at hx
      cases h : x.possible with
      | none => rfl
      | some l => rw [h] at hx; cases hx
    unfold candidates
    rw [this]
  classical
  let d : Inst F → F := fun y => if h : ∃ d, m.dist y x = .ok d then h.choose else Dbl.zero
  have hd' : ∀ y ∈ candidates m.data x, m.dist y x = .ok (d y) := by
    intro y hy
    rw [hc] at hy
    have h := hd y hy
    show m.dist y x = .ok (if h : _ then _ else _)
    rw [dif_pos h]
    exact h.choose_spec
  obtain ⟨ns, hns, hperm⟩ : ∃ ns, m.nearestNeighbors x = .ok ns ∧ ns.Perm m.data := by
    refine ⟨_, nearest_eq m x d hd', ?_⟩
    have hp := stableSort_perm (fun a b => d a <. d b) (candidates m.data x)
    have hl := hp.length_eq
    rw [List.take_of_length_le]
    · exact hp.trans (by rw [hc])
    · rw [hl, hc]; omega
  have hns0 : ns ≠ [] := fun h => hne (by rw [h] at hperm; exact hperm.symm.eq_nil)
  refine ⟨?_, ?_⟩
  · obtain ⟨c, h1, h2⟩ := (C50_vote m x ns hns).1 hns0
    rw [h1]
    have h3 := C46_plain m.data x hne hx
    congr 1
    have hp : (ns.map Inst.label).Perm (m.data.map Inst.label) := hperm.map _
    refine IsMajority.unique (l := m.data.map Inst.label) ⟨hp.mem_iff.1 h2.1, fun t => ?_, fun t ht he => ?_⟩ h3
    · rw [← hp.count_eq, ← hp.count_eq]; exact h2.2 t
    · rw [← hp.count_eq, ← hp.count_eq] at he; exact h2.3 t (hp.mem_iff.2 ht) he
  · unfold Knn.predictProbability dummyProbability
    rw [hns, res_bind_ok]
    have : ns.classDistribution = m.data.classDistribution := by
      rw [classDistribution_eq, classDistribution_eq]
      exact DD.ofList_perm (hperm.map _)
    rw [this]
    rfl

/-! ## a forest of equal trees -/

/-- **C159** an ensemble of copies of one tree predicts as that tree -/
theorem C159_one_tree (t : Node F) (B : Nat) (x : Inst F) {a : String} (h : treePredict t x = .ok a) :
    ensemblePredict (List.replicate (B + 1) t) x = .ok a := by
  have hv : ∀ t' ∈ List.replicate (B + 1) t, treePredict t' x = .ok ((fun _ => a) t') := by
    intro t' ht'
    rw [List.eq_of_mem_replicate ht']
    exact h
  unfold ensemblePredict
  rw [ensembleVotes_ok hv, res_bind_ok, res_pure]
  congr 1
  have hne : (List.replicate (B + 1) t).map (fun _ => a) ≠ [] := by simp
  have := getMaxItem_majority _ hne
  have hm := this.1
  rw [List.map_replicate] at hm
  rw [List.map_replicate]
  exact List.eq_of_mem_replicate hm

/-! ## a stump is the top of the tree -/

theorem asLeaf_grow {fuel : Nat} {p : IList F} {c : Cond F} {n : Node F} (hc : c.attr ≠ -1)
    (h : Node.grow none false fuel p c = .ok n) : Node.grow none true fuel p c = .ok n.asLeaf := by
  cases fuel with
  | zero => cases h
  | succ fuel =>
    rw [Node.grow] at h ⊢
    simp only at h ⊢
    split
    · rename_i h1
      rw [if_pos h1] at h
      cases h
      rfl
    · rename_i h1
      rw [if_neg h1, if_neg (by simp)] at h
      rw [if_pos ⟨trivial, hc⟩]
      unfold Node.splitNode at h
      simp only [bind_ok_iff] at h
      obtain ⟨x0, _, is, _, s, _, h⟩ := h
      unfold Node.finish at h
      split at h
      · cases h; rfl
      · simp only [bind_ok_iff] at h
        obtain ⟨_, _, _, _, _, _, h⟩ := h
        cases h; rfl

/-- children grown by a weaker constructor -/
theorem childrenKind_asLeaf {rec rec' : IList F → Cond F → Res (Node F)}
    (hrec : ∀ p c n, c.attr ≠ -1 → rec p c = .ok n → rec' p c = .ok n.asLeaf) {data : IList F} {b : Node.Best F} {i : Nat}
    {a : Attr F} {ch : List (Node F)} (h : Node.childrenKind rec data b i a = .ok ch) :
    Node.childrenKind rec' data b i a = .ok (ch.map Node.asLeaf) := by
  have hi : ((i : Nat) : Int) ≠ -1 := by omega
  unfold Node.childrenKind at h ⊢
  split
  · rename_i h1
    rw [if_pos h1] at h
    simp only [bind_ok_iff] at h
    obtain ⟨m, hm, h⟩ := h
    rw [hm, res_bind_ok]
    unfold Node.childrenIndexed at h ⊢
    simp only [bind_ok_iff] at h
    obtain ⟨ps, e1, p0, e2, c0, e3, p1, e4, c1, e5, h⟩ := h
    cases h
    rw [e1, res_bind_ok, e2, res_bind_ok, hrec _ _ _ hi e3, res_bind_ok, e4, res_bind_ok, hrec _ _ _ hi e5, res_bind_ok]
    rfl
  · rename_i h1
    rw [if_neg h1] at h
    split
    · rename_i h2
      rw [if_pos h2] at h
      unfold Node.childrenDiscrete at h ⊢
      simp only [bind_ok_iff] at h
      obtain ⟨vs, e1, ps, e2, h⟩ := h
      rw [e1, res_bind_ok, e2, res_bind_ok]
      have := mapM_sim id Node.asLeaf (Node.childDiscrete rec ps i) (Node.childDiscrete rec' ps i) vs.zipIdx ch (by
        intro v _ y hy
        unfold Node.childDiscrete at hy ⊢
        rw [bind_ok_iff] at hy
        obtain ⟨part, e3, hy⟩ := hy
        simp only [id]
        rw [e3, res_bind_ok]
        exact hrec _ _ _ hi hy) h
      rwa [List.map_id] at this
    · rename_i h2
      rw [if_neg h2] at h
      split
      · rename_i h3
        rw [if_pos h3] at h
        unfold Node.childrenContinuous at h ⊢
        simp only [bind_ok_iff] at h
        obtain ⟨ps, e1, p0, e2, c0, e3, p1, e4, c1, e5, h⟩ := h
        cases h
        rw [e1, res_bind_ok, e2, res_bind_ok, hrec _ _ _ hi e3, res_bind_ok, e4, res_bind_ok, hrec _ _ _ hi e5, res_bind_ok]
        rfl
      · rename_i h3
        rw [if_neg h3] at h
        cases h
        rfl

/-- **C159** the stump trained on a list is the top of the unpruned tree trained on it -/
theorem C159_stump_is_top {data : IList F} {t : Node F} (h : treeTrain data none = .ok t) :
    stumpTrain data = .ok t.top := by
  unfold treeTrain at h
  unfold stumpTrain
  simp only at h
  rw [Node.grow] at h ⊢
  simp only at h ⊢
  split
  · rename_i h1
    rw [if_pos h1] at h
    cases h
    rfl
  · rename_i h1
    rw [if_neg h1, if_neg (by simp)] at h
    rw [if_neg (by simp [Cond.root])]
    unfold Node.splitNode at h ⊢
    simp only [bind_ok_iff] at h
    obtain ⟨x0, e1, is, e2, s, e3, h⟩ := h
    rw [e1, res_bind_ok, e2, res_bind_ok, e3, res_bind_ok]
    unfold Node.finish at h ⊢
    split at h
    · rename_i h2
      cases h
      rfl
    · rename_i i h2
      simp only [bind_ok_iff] at h
      obtain ⟨x1, e4, a, e5, ch, e6, h⟩ := h
      cases h
      simp only
      rw [e4, res_bind_ok, e5, res_bind_ok, childrenKind_asLeaf (rec' := Node.grow none true data.length)
        (fun p c n hc hn => asLeaf_grow hc hn) e6, res_bind_ok]
      rfl

/-! ## a random forest that looks at all attributes -/

theorem addTo_mem {ps ps' : Parts F} {k : Nat} {x : Inst F} {P : Inst F → Prop} (h : Parts.addTo ps k x = .ok ps')
    (hps : ∀ p ∈ ps, ∀ y ∈ p, P y) (hx : P x) : ∀ p ∈ ps', ∀ y ∈ p, P y := by
  unfold Parts.addTo at h
  rw [bind_ok_iff] at h
  obtain ⟨q, e1, h⟩ := h
  cases h
  intro p hp y hy
  rcases List.mem_or_eq_of_mem_set hp with hp | rfl
  · exact hps p hp y hy
  · unfold IList.add at hy
    rcases List.mem_append.1 hy with hy | hy
    · exact hps q (List.mem_of_getElem? (by simpa using e1)) y hy
    · rw [List.mem_singleton.1 hy]; exact hx

theorem parts_mem {l : IList F} {f : Parts F → Inst F → Res (Parts F)}
    (hf : ∀ ps x ps', f ps x = .ok ps' → ∃ k, Parts.addTo ps k x = .ok ps') :
    ∀ {ps ps' : Parts F}, l.foldlM f ps = .ok ps' → ∀ {P : Inst F → Prop}, (∀ x ∈ l, P x) → (∀ p ∈ ps, ∀ y ∈ p, P y) →
    ∀ p ∈ ps', ∀ y ∈ p, P y := by
  induction l with
  | nil => intro ps ps' h P _ hps; cases h; exact hps
  | cons x l ih =>
    intro ps ps' h P hl hps
    rw [List.foldlM_cons, bind_ok_iff] at h
    obtain ⟨ps1, h1, h⟩ := h
    obtain ⟨k, hk⟩ := hf _ _ _ h1
    exact ih h (fun y hy => hl y (by simp [hy])) (addTo_mem hk hps (hl x (by simp)))

/-- constructors that agree on parts of the data give the same children -/
theorem childrenKind_congr {rec rec' : IList F → Cond F → Res (Node F)} {data : IList F}
    (hrec : ∀ p c, (∀ x ∈ p, x ∈ data) → rec p c = rec' p c) (b : Node.Best F) (i : Nat) (a : Attr F) :
    Node.childrenKind rec data b i a = Node.childrenKind rec' data b i a := by
  have hat : ∀ {ps : Parts F} {k : Nat} {p : IList F}, (∀ q ∈ ps, ∀ y ∈ q, y ∈ data) → atR ps k = .ok p → ∀ y ∈ p, y ∈ data :=
    fun hps hp => hps _ (List.mem_of_getElem? (by simpa using hp))
  unfold Node.childrenKind
  split
  · cases hm : a.getMaxIndex with
    | error e => rfl
    | ok m =>
      rw [res_bind_ok, res_bind_ok]
      unfold Node.childrenIndexed
      cases hp : Parts.byIndexed data i b.k with
      | error e => rfl
      | ok ps =>
        have hps : ∀ q ∈ ps, ∀ y ∈ q, y ∈ data := parts_mem (by
          intro ps x ps' h
          rw [bind_ok_iff] at h
          obtain ⟨v, _, h⟩ := h
          split at h
          · exact ⟨_, h⟩
          · exact ⟨_, h⟩) hp (fun x hx => hx) (by simp)
        rw [res_bind_ok, res_bind_ok]
        cases h0 : atR ps 0 with
        | error e => rfl
        | ok p0 =>
          rw [res_bind_ok, res_bind_ok, hrec p0 _ (hat hps h0)]
          cases h1 : atR ps 1 with
          | error e => rfl
          | ok p1 => simp only [res_bind_ok, hrec p1 _ (hat hps h1)]
  · split
    · unfold Node.childrenDiscrete
      cases hv : data.getAttributeValueList i with
      | error e => rfl
      | ok vs =>
        rw [res_bind_ok, res_bind_ok]
        cases hp : Parts.byDiscrete data i with
        | error e => rfl
        | ok ps =>
          have hps : ∀ q ∈ ps, ∀ y ∈ q, y ∈ data := by
            unfold Parts.byDiscrete at hp
            rw [hv, res_bind_ok] at hp
            exact parts_mem (by
              intro ps x ps' h
              rw [bind_ok_iff] at h
              obtain ⟨v, _, h⟩ := h
              exact ⟨_, h⟩) hp (fun x hx => hx) (by
                intro p hp y hy
                obtain ⟨_, _, rfl⟩ := List.mem_map.1 hp
                cases hy)
          rw [res_bind_ok, res_bind_ok]
          congr 1
          funext v
          unfold Node.childDiscrete
          cases h0 : atR ps v.2 with
          | error e => rfl
          | ok p0 => rw [res_bind_ok, res_bind_ok, hrec p0 _ (hat hps h0)]
    · split
      · unfold Node.childrenContinuous
        cases hp : Parts.byThreshold data i b.v with
        | error e => rfl
        | ok ps =>
          have hps : ∀ q ∈ ps, ∀ y ∈ q, y ∈ data := parts_mem (by
            intro ps x ps' h
            rw [bind_ok_iff] at h
            obtain ⟨v, _, h⟩ := h
            split at h
            · exact ⟨_, h⟩
            · exact ⟨_, h⟩) hp (fun x hx => hx) (by simp)
          rw [res_bind_ok, res_bind_ok]
          cases h0 : atR ps 0 with
          | error e => rfl
          | ok p0 =>
            rw [res_bind_ok, res_bind_ok, hrec p0 _ (hat hps h0)]
            cases h1 : atR ps 1 with
            | error e => rfl
            | ok p1 => simp only [res_bind_ok, hrec p1 _ (hat hps h1)]
      · rfl

theorem grow_all_attributes {size : Int} {arr : Nat → List Nat} {st : Bool} : ∀ (fuel : Nat) (data : IList F) (c : Cond F),
    (∀ x ∈ data, (x.attributeSize : Int) ≤ size) → Node.grow (some (size, arr)) st fuel data c = Node.grow none st fuel data c := by
  intro fuel
  induction fuel with
  | zero => intro data c _; rfl
  | succ fuel ih =>
    intro data c hsize
    rw [Node.grow, Node.grow]
    simp only
    split
    · rfl
    · split
      · rfl
      · unfold Node.splitNode
        cases h0 : atR data 0 with
        | error e => rfl
        | ok x0 =>
          have hx0 : x0 ∈ data := List.mem_of_getElem? (by simpa using h0)
          have htr : Node.triedIndices (some (size, arr)) x0.attributeSize = .ok (List.range x0.attributeSize) := by
            unfold Node.triedIndices
            have := hsize x0 hx0
            simp only
            rw [if_neg (by omega)]
          rw [res_bind_ok, res_bind_ok, htr, res_bind_ok]
          have htr' : Node.triedIndices none x0.attributeSize = .ok (List.range x0.attributeSize) := rfl
          rw [htr', res_bind_ok]
          cases hs : (List.range x0.attributeSize).foldlM Node.searchStep
              (⟨data, data.classDistribution, ⟨data.classDistribution.entropy, none, 0, Dbl.zero⟩⟩ : Node.Search F) with
          | error e => rfl
          | ok s =>
            rw [res_bind_ok, res_bind_ok]
            have hinv := search_inv (n := x0.attributeSize) (fun i hi => List.mem_range.1 hi)
              ⟨List.Perm.refl _, le_refl _, by intro i hi; cases hi⟩ hs
            unfold Node.finish
            cases hb : s.best.attr with
            | none => rfl
            | some i =>
              simp only
              cases h1 : atR s.data 0 with
              | error e => rfl
              | ok x1 =>
                rw [res_bind_ok, res_bind_ok]
                cases h2 : x1.getAttribute i with
                | error e => rfl
                | ok a =>
                  rw [res_bind_ok, res_bind_ok, childrenKind_congr (fun p c hp => ih p c (fun x hx =>
                    hsize x (hinv.perm.mem_iff.1 (hp x hx))))]

/-- **C159** a random forest whose subset size reaches the number of attributes is bagging -/
theorem C159_forest_of_all_attributes {size : Int} {arr : Nat → List Nat} {draws : Nat → List Nat} {old : List (Node F)}
    {trainSet : IList F} {B : Int} (h : ∀ x ∈ trainSet, (x.attributeSize : Int) ≤ size) :
    ensembleTrain (some (size, arr)) draws old trainSet B = ensembleTrain none draws old trainSet B := by
  unfold ensembleTrain
  congr 1
  funext forest i
  simp only
  rw [grow_all_attributes _ _ _ (by
    intro x hx
    unfold IList.bootstrap at hx
    obtain ⟨k, _, hk⟩ := List.mem_filterMap.1 hx
    exact h x (List.mem_of_getElem? hk))]

/-- three instances, five neighbours asked for: the majority label although the nearest is another -/
example : Knn.predict (⟨exOrder XR, 5, euclidean⟩ : Knn XR) ⟨"?", [.continuous (.fin 2), .indexed "v" 1 2, .discrete "q"], none⟩ = .ok "a" ∧
    Knn.predict (⟨exOrder XR, 1, euclidean⟩ : Knn XR) ⟨"?", [.continuous (.fin 2), .indexed "v" 1 2, .discrete "q"], none⟩ = .ok "b" ∧
    dummyPredict (exOrder XR).classDistribution (⟨"?", [], none⟩ : Inst XR) = "a" := by decide +kernel

/-- data that needs two splits: the stump keeps the first -/
def exTwoSplits : IList XR :=
  [⟨"a", [.discrete "u", .discrete "p"], none⟩, ⟨"b", [.discrete "u", .discrete "q"], none⟩,
   ⟨"c", [.discrete "w", .discrete "p"], none⟩, ⟨"c", [.discrete "w", .discrete "q"], none⟩]

example : (do
    let t ← treeTrain exTwoSplits none
    let s ← stumpTrain exTwoSplits
    pure (t.countNodes, s.countNodes, s.children.map Node.label)) = (.ok (5, 3, ["a", "c"]) : Res _) := by decide +kernel

/-- a forest of two trees with subset size 2: the hypothesis is met, and training succeeds -/
example : (∀ x ∈ exTwoSplits, (x.attributeSize : Int) ≤ 2) ∧
    (ensembleTrain (some (2, fun n => (List.range n).reverse)) (fun i => if i = 0 then [0, 1, 2, 3] else [3, 1, 1, 2]) [] exTwoSplits 2).toOption.map
      (List.map Node.countNodes) = some [5, 3] := by decide +kernel

end Verif
