import Verif.Lemmas.RenameModels

/-! # Renaming the classes: decision trees and their ensembles -/

set_option linter.unusedSectionVars false

namespace Verif
open Dbl
variable {F : Type} [Dbl F] {f : String → String}

mutual
/-- a tree with renamed classes -/
def Node.rn (f : String → String) : Node F → Node F
  | .mk c l s d ch => .mk c l (f s) (d.rn f) (Node.rnIn f ch)
/-- children with renamed classes -/
def Node.rnIn (f : String → String) : List (Node F) → List (Node F)
  | [] => []
  | n :: ns => Node.rn f n :: Node.rnIn f ns
end

theorem Node.rnIn_eq (ch : List (Node F)) : Node.rnIn f ch = ch.map (Node.rn f) := by
  induction ch with
  | nil => rw [Node.rnIn]; rfl
  | cons n ns ih => rw [Node.rnIn, ih]; rfl

theorem Node.rn_cond (n : Node F) : (n.rn f).cond = n.cond := by
  cases n; rw [Node.rn]; rfl

theorem rn_satisfy (c : Cond F) (x : Inst F) : c.satisfy (x.rn f) = c.satisfy x := rfl

section
variable (hf : OrderRenaming f)
include hf

theorem eq_empty_rn (p : String) : f p = "" ↔ p = "" := by
  have := hf.inj.eq_iff (a := p) (b := "")
  rwa [hf.empty] at this

mutual
theorem rn_predictPlain : ∀ (n : Node F) (x : Inst F), (n.rn f).predictPlain (x.rn f) = (n.predictPlain x).map f
  | .mk c l s d ch, x => by
    rw [Node.rn, Node.predictPlain, Node.predictPlain, rn_predictPlainIn s ch x, map_ite_res, map_ok_res]
theorem rn_predictPlainIn (s : String) : ∀ (ch : List (Node F)) (x : Inst F),
    Node.predictPlainIn (f s) (Node.rnIn f ch) (x.rn f) = (Node.predictPlainIn s ch x).map f
  | [], x => by rw [Node.rnIn, Node.predictPlainIn, Node.predictPlainIn]; rfl
  | n :: ns, x => by
    rw [Node.rnIn, Node.predictPlainIn, Node.predictPlainIn, Node.rn_cond, rn_satisfy,
      rn_predictPlain n x, rn_predictPlainIn s ns x, map_bind_res]
    simp only [map_ite_res]
end

mutual
theorem rn_predictComposite : ∀ (n : Node F) (x : Inst F),
    (n.rn f).predictComposite (x.rn f) = (n.predictComposite x).map f
  | .mk c l s d ch, x => by
    rw [Node.rn, Node.predictComposite, Node.predictComposite, Inst.rn_possibleLabels, DD.getMaxItemOf_rn hf,
      rn_predictCompositeIn _ ch x, map_ite_res, map_ok_res]
theorem rn_predictCompositeIn (s : String) : ∀ (ch : List (Node F)) (x : Inst F),
    Node.predictCompositeIn (f s) (Node.rnIn f ch) (x.rn f) = (Node.predictCompositeIn s ch x).map f
  | [], x => by rw [Node.rnIn, Node.predictCompositeIn, Node.predictCompositeIn]; rfl
  | n :: ns, x => by
    rw [Node.rnIn, Node.predictCompositeIn, Node.predictCompositeIn, Node.rn_cond, rn_satisfy,
      rn_predictComposite n x, rn_predictCompositeIn s ns x, map_bind_res]
    refine bind_congr_res (fun b _ => ?_)
    rw [map_ite_res, map_bind_res, bind_map_res]
    simp only [ne_eq, eq_empty_rn hf, map_ok_res, apply_ite f]
end

mutual
theorem rn_treeProbability : ∀ (n : Node F) (x : Inst F),
    (n.rn f).predictProbability (x.rn f) = (n.predictProbability x).map (OMap.rn f)
  | .mk c l s d ch, x => by
    rw [Node.rn, Node.predictProbability, Node.predictProbability, rn_treeProbabilityIn d ch x, map_ite_res,
      DD.getProbabilityDistribution_rn hf, map_ok_res]
theorem rn_treeProbabilityIn (d : DD) : ∀ (ch : List (Node F)) (x : Inst F),
    Node.predictProbabilityIn (d.rn f) (Node.rnIn f ch) (x.rn f) = (Node.predictProbabilityIn d ch x).map (OMap.rn f)
  | [], x => by
    rw [Node.rnIn, Node.predictProbabilityIn, Node.predictProbabilityIn, DD.getProbabilityDistribution_rn hf]; rfl
  | n :: ns, x => by
    rw [Node.rnIn, Node.predictProbabilityIn, Node.predictProbabilityIn, Node.rn_cond, rn_satisfy,
      rn_treeProbability n x, rn_treeProbabilityIn d ns x, map_bind_res]
    simp only [map_ite_res]
end

theorem rn_treePredict (n : Node F) (x : Inst F) : treePredict (n.rn f) (x.rn f) = (treePredict n x).map f := by
  unfold treePredict Node.predict
  rw [Inst.rn_isComposite, Inst.rn_possibleLabels, rn_predictPlain hf, rn_predictComposite hf, ← map_ite_res,
    bind_map_res, map_bind_res]
  refine bind_congr_res (fun p _ => ?_)
  simp only [eq_empty_rn hf, atR_mapU, map_ite_res, map_ok_res]

/-! ## growing -/

namespace Node

theorem rn_entropyForDiscreteAttribute (l : IList F) (i : Nat) :
    entropyForDiscreteAttribute (l.map (Inst.rn f)) i = entropyForDiscreteAttribute l i := by
  unfold entropyForDiscreteAttribute
  rw [rn_attributeClassDist hf, bind_map_res]
  simp only [List.foldl_map, List.length_map, DD.entropy_rn, DD.getSum_rn]

theorem rn_indexedStep (l : IList F) (i : Nat) (st : DD × Best F) (k : Nat) :
    indexedStep (l.map (Inst.rn f)) i (st.1.rn f, st.2) k =
      (indexedStep l i st k).map (fun p => (p.1.rn f, p.2)) := by
  unfold indexedStep
  rw [rn_indexedDist hf, bind_map_res, map_bind_res]
  refine bind_congr_res (fun d _ => ?_)
  simp only [map_pure_res, DD.getSum_rn, DD.removeDistribution_rn hf, DD.entropy_rn, DD.addDistribution_rn hf,
    List.length_map, apply_ite (fun p : DD × Best F => (p.1.rn f, p.2))]

/-- a renamed state of the sweep -/
def Sweep.rn (f : String → String) (s : Sweep F) : Sweep F := ⟨s.prev, s.left.rn f, s.right.rn f, s.best⟩

theorem rn_sweepValue (n i : Nat) (s : Sweep F) (v : F) :
    sweepValue n i (s.rn f) v = (sweepValue n i s v).rn f := by
  obtain ⟨prev, left, right, best⟩ := s
  cases prev with
  | none => rfl
  | some p =>
    simp only [sweepValue, sweepSplit, Sweep.rn, DD.getSum_rn, DD.entropy_rn]
    split_ifs <;> rfl

theorem rn_sweepStep (n i : Nat) (s : Sweep F) (x : Inst F) :
    sweepStep n i (s.rn f) (x.rn f) = (sweepStep n i s x).map (Sweep.rn f) := by
  unfold sweepStep
  rw [map_bind_res, Inst.rn_contAt]
  refine bind_congr_res (fun v _ => ?_)
  simp only [map_pure_res, rn_sweepValue hf, Inst.rn_label]
  simp only [Sweep.rn, DD.removeItem_rn hf, DD.addItem_rn hf]

/-- a renamed state of the search -/
def Search.rn (f : String → String) (s : Search F) : Search F := ⟨s.data.map (Inst.rn f), s.classDist.rn f, s.best⟩

theorem rn_searchIndexed (s : Search F) (i : Nat) (m : Int) :
    searchIndexed (s.rn f) i m = (searchIndexed s i m).map (Search.rn f) := by
  unfold searchIndexed
  rw [show ((s.rn f).classDist, (s.rn f).best) = (fun p : DD × Best F => (p.1.rn f, p.2)) (s.classDist, s.best) from rfl,
    foldlM_equiv' (fun p : DD × Best F => (p.1.rn f, p.2)) (indexedStep s.data i) (indexedStep (s.rn f).data i) _ _
      (fun k _ st => rn_indexedStep hf s.data i st k), bind_map_res, map_bind_res]
  rfl

theorem rn_searchDiscrete (s : Search F) (i : Nat) :
    searchDiscrete (s.rn f) i = (searchDiscrete s i).map (Search.rn f) := by
  unfold searchDiscrete
  rw [show (s.rn f).data = s.data.map (Inst.rn f) from rfl, rn_entropyForDiscreteAttribute hf, map_bind_res]
  rfl

theorem rn_searchContinuous (s : Search F) (i : Nat) :
    searchContinuous (s.rn f) i = (searchContinuous s i).map (Search.rn f) := by
  unfold searchContinuous
  rw [show (s.rn f).data = s.data.map (Inst.rn f) from rfl, rn_sort, bind_map_res, map_bind_res]
  refine bind_congr_res (fun t _ => ?_)
  rw [rn_classDist hf, List.length_map, map_bind_res]
  rw [show (⟨none, (IList.classDistribution t).rn f, DD.empty, (s.rn f).best⟩ : Sweep F) =
    Sweep.rn f ⟨none, IList.classDistribution t, DD.empty, s.best⟩ from rfl,
    foldlM_equiv (Inst.rn f) (Sweep.rn f) (sweepStep t.length i) (sweepStep t.length i) _ _
      (fun x _ st => rn_sweepStep hf _ _ st x), bind_map_res]
  rfl

theorem rn_searchStep (s : Search F) (i : Nat) :
    searchStep (s.rn f) i = (searchStep s i).map (Search.rn f) := by
  unfold searchStep
  rw [show (s.rn f).data = s.data.map (Inst.rn f) from rfl, atR_mapU, bind_map_res, map_bind_res]
  refine bind_congr_res (fun x0 _ => ?_)
  rw [Inst.rn_getAttribute, map_bind_res]
  refine bind_congr_res (fun a _ => ?_)
  unfold searchKind
  simp only [map_ite_res, map_bind_res, rn_searchIndexed hf, rn_searchDiscrete hf, rn_searchContinuous hf, map_ok_res]

theorem rn_childrenKind {rec : IList F → Cond F → Res (Node F)} {rec' : IList F → Cond F → Res (Node F)}
    (hr : ∀ l c, rec' (l.map (Inst.rn f)) c = (rec l c).map (Node.rn f)) (l : IList F) (b : Best F) (i : Nat) (a : Attr F) :
    childrenKind rec' (l.map (Inst.rn f)) b i a = (childrenKind rec l b i a).map (List.map (Node.rn f)) := by
  have two : ∀ (ps : Parts F) (c0 c1 : Cond F),
      (do let p0 ← atR (ps.rn f) 0
          let n0 ← rec' p0 c0
          let p1 ← atR (ps.rn f) 1
          let n1 ← rec' p1 c1
          pure [n0, n1] : Res (List (Node F))) =
      (do let p0 ← atR ps 0
          let n0 ← rec p0 c0
          let p1 ← atR ps 1
          let n1 ← rec p1 c1
          pure [n0, n1] : Res (List (Node F))).map (List.map (Node.rn f)) := by
    intro ps c0 c1
    unfold Parts.rn
    simp only [atR_mapU, bind_map_res, map_bind_res, hr, map_pure_res, List.map_cons, List.map_nil]
  unfold childrenKind
  rw [map_ite_res, map_ite_res, map_ite_res, map_bind_res]
  congr 1
  · refine bind_congr_res (fun m _ => ?_)
    unfold childrenIndexed
    rw [rn_byIndexed, bind_map_res, map_bind_res]
    exact bind_congr_res (fun ps _ => two ps _ _)
  · congr 1
    · unfold childrenDiscrete
      rw [rn_valueList, map_bind_res]
      refine bind_congr_res (fun vs _ => ?_)
      rw [rn_byDiscrete, bind_map_res, map_bind_res]
      refine bind_congr_res (fun ps _ => ?_)
      have := mapM_equiv id (Node.rn f) (childDiscrete rec ps i) (childDiscrete rec' (ps.rn f) i) vs.zipIdx (by
        intro p _
        unfold childDiscrete Parts.rn
        simp only [atR_mapU, bind_map_res, map_bind_res, hr, id])
      rwa [List.map_id] at this
    · congr 1
      unfold childrenContinuous
      rw [rn_byThreshold, bind_map_res, map_bind_res]
      exact bind_congr_res (fun ps _ => two ps _ _)

theorem rn_splitNode {rec : IList F → Cond F → Res (Node F)} {rec' : IList F → Cond F → Res (Node F)}
    (hr : ∀ l c, rec' (l.map (Inst.rn f)) c = (rec l c).map (Node.rn f)) (param : SubsetParam)
    (mk mk' : Bool → List (Node F) → Node F) (hmk : ∀ b ch, mk' b (ch.map (Node.rn f)) = (mk b ch).rn f) (l : IList F) :
    splitNode rec' param mk' (l.map (Inst.rn f)) = (splitNode rec param mk l).map (Node.rn f) := by
  unfold splitNode
  rw [atR_mapU, bind_map_res, map_bind_res]
  refine bind_congr_res (fun x0 _ => ?_)
  rw [Inst.rn_attributeSize, map_bind_res]
  refine bind_congr_res (fun is _ => ?_)
  rw [rn_classDist hf, DD.entropy_rn]
  rw [show (⟨l.map (Inst.rn f), l.classDistribution.rn f, ⟨l.classDistribution.entropy, none, 0, Dbl.zero⟩⟩ : Search F) =
    Search.rn f ⟨l, l.classDistribution, ⟨l.classDistribution.entropy, none, 0, Dbl.zero⟩⟩ from rfl,
    foldlM_equiv' (Search.rn f) searchStep searchStep _ _ (fun i _ s => rn_searchStep hf s i), bind_map_res, map_bind_res]
  refine bind_congr_res (fun s _ => ?_)
  unfold finish
  rw [show (s.rn f).best = s.best from rfl, show (s.rn f).data = s.data.map (Inst.rn f) from rfl]
  cases s.best.attr with
  | none => simp only [map_ok_res, ← hmk, List.map_nil]
  | some i =>
    simp only
    rw [atR_mapU, bind_map_res, map_bind_res]
    refine bind_congr_res (fun x0 _ => ?_)
    rw [Inst.rn_getAttribute, map_bind_res]
    refine bind_congr_res (fun a _ => ?_)
    rw [rn_childrenKind hf hr, bind_map_res, map_bind_res]
    simp only [map_pure_res, hmk]

theorem rn_grow (param : SubsetParam) (stump : Bool) : ∀ (n : Nat) (l : IList F) (c : Cond F),
    grow param stump n (l.map (Inst.rn f)) c = (grow param stump n l c).map (Node.rn f) := by
  intro n
  induction n with
  | zero => intro l c; rfl
  | succ n ih =>
    intro l c
    have hmk : ∀ b ch, (Node.mk c b (getMaximum (IList.getClassLabels (l.map (Inst.rn f))))
        ((IList.getClassLabels (l.map (Inst.rn f))).foldl (fun d k => d.addItem k) DD.empty) (ch.map (Node.rn f)) : Node F) =
        Node.rn f (.mk c b (getMaximum l.getClassLabels) (l.getClassLabels.foldl (fun d k => d.addItem k) DD.empty) ch) := by
      intro b ch
      rw [Node.rn, Node.rnIn_eq, rn_getClassLabels, getMaximum_rn hf,
        ← DD.foldl_rn hf l.getClassLabels DD.empty, DD.empty_rn]
    unfold grow
    simp only
    rw [rn_distinct hf, List.length_map, map_ite_res, map_ite_res, map_ok_res, ← hmk, List.map_nil]
    rw [rn_splitNode hf ih param _ _ hmk]

end Node

/-! ## pruning -/

theorem rn_testClassifier (p p' : Inst F → Res String) (h : ∀ x, p' (Inst.rn f x) = (p x).map f) (l : IList F) :
    testClassifier p' (l.map (Inst.rn f)) = testClassifier p l := by
  unfold testClassifier
  simp only [List.foldlM_map, h, List.length_map, bind_map_res, Inst.rn_label, hf.inj.eq_iff]

theorem rn_treeAccuracy (l : IList F) (n : Node F) :
    treeAccuracy (l.map (Inst.rn f)) (n.rn f) = treeAccuracy l n := by
  unfold treeAccuracy
  rw [rn_testClassifier hf (treePredict n) (treePredict (n.rn f)) (rn_treePredict hf n)]

mutual
theorem rn_pruneNode (acc acc' : Node F → Res F) (ha : ∀ n, acc' (Node.rn f n) = acc n) :
    ∀ (ctx ctx' : Node F → Node F) (_ : ∀ n, ctx' (Node.rn f n) = (ctx n).rn f) (n : Node F),
      pruneNode acc' ctx' (n.rn f) = (pruneNode acc ctx n).map (Node.rn f)
  | ctx, ctx', hc, .mk c leaf s d ch => by
    have hc' : ∀ b cs, ctx' (.mk c b (f s) (d.rn f) (Node.rnIn f cs)) = (ctx (.mk c b s d cs)).rn f := by
      intro b cs
      rw [← hc, Node.rn]
    rw [Node.rn, pruneNode, pruneNode]
    simp only [Node.setLeaf]
    rw [hc', hc', ha, ha]
    simp only [map_ite_res, map_bind_res]
    rw [← Node.rn, map_ok_res, map_ok_res]
    congr 1
    refine bind_congr_res (fun b _ => bind_congr_res (fun a _ => ?_))
    congr 1
    · have := rn_pruneChildren acc acc' ha (fun ch => ctx (.mk c false s d ch))
        (fun ch => ctx' (.mk c false (f s) (d.rn f) ch)) (by intro cs; rw [← Node.rnIn_eq]; exact hc' false cs) [] ch
      rw [List.map_nil] at this
      rw [this, bind_map_res]
      refine bind_congr_res (fun cs _ => ?_)
      rw [map_ok_res, Node.rn, Node.rnIn_eq]
theorem rn_pruneChildren (acc acc' : Node F → Res F) (ha : ∀ n, acc' (Node.rn f n) = acc n) :
    ∀ (ctx ctx' : List (Node F) → Node F) (_ : ∀ ns, ctx' (ns.map (Node.rn f)) = (ctx ns).rn f)
      (dn : List (Node F)) (ch : List (Node F)),
      pruneChildren acc' ctx' (dn.map (Node.rn f)) (Node.rnIn f ch) = (pruneChildren acc ctx dn ch).map (List.map (Node.rn f))
  | ctx, ctx', hc, dn, [] => by rw [Node.rnIn, pruneChildren, pruneChildren]; rfl
  | ctx, ctx', hc, dn, n :: ns => by
    rw [Node.rnIn, pruneChildren, pruneChildren, map_bind_res]
    rw [rn_pruneNode acc acc' ha (fun m => ctx (dn ++ m :: ns)) _ (by
      intro m
      rw [← hc, Node.rnIn_eq]
      simp) n, bind_map_res]
    refine bind_congr_res (fun m _ => ?_)
    have := rn_pruneChildren acc acc' ha ctx ctx' hc (dn ++ [m]) ns
    rwa [List.map_append] at this
end

theorem rn_treeTrain (l : IList F) (pr : Option (F × List Nat)) :
    treeTrain (l.map (Inst.rn f)) pr = (treeTrain l pr).map (Node.rn f) := by
  unfold treeTrain
  cases pr with
  | none => simp only [List.length_map, Node.rn_grow hf]
  | some p =>
    simp only
    rw [rn_byRatioStratified hf, bind_map_res, map_bind_res]
    refine bind_congr_res (fun ps _ => ?_)
    unfold Parts.rn
    simp only [atR_mapU, bind_map_res, map_bind_res, List.length_map, Node.rn_grow hf]
    refine bind_congr_res (fun p1 _ => bind_congr_res (fun r _ => bind_congr_res (fun p0 _ => ?_)))
    exact rn_pruneNode hf _ _ (rn_treeAccuracy hf p0) id id (fun _ => rfl) r

theorem rn_stumpTrain (l : IList F) : stumpTrain (l.map (Inst.rn f)) = (stumpTrain l).map (Node.rn f) := by
  unfold stumpTrain
  simp only [List.length_map, Node.rn_grow hf]

/-! ## ensembles -/

theorem rn_ensembleVotes (ts : List (Node F)) (x : Inst F) :
    ensembleVotes (ts.map (Node.rn f)) (x.rn f) = (ensembleVotes ts x).map (DD.rn f) := by
  unfold ensembleVotes
  refine foldlM_equiv (Node.rn f) (DD.rn f) _ _ ts DD.empty (fun t _ d => ?_)
  rw [rn_treePredict hf, bind_map_res, map_bind_res]
  simp only [map_pure_res, DD.addItem_rn hf]

theorem rn_ensemblePredict (ts : List (Node F)) (x : Inst F) :
    ensemblePredict (ts.map (Node.rn f)) (x.rn f) = (ensemblePredict ts x).map f := by
  unfold ensemblePredict
  rw [rn_ensembleVotes hf, bind_map_res, map_bind_res]
  simp only [map_pure_res, DD.getMaxItem_rn hf]

theorem rn_ensembleProbability (ts : List (Node F)) (x : Inst F) :
    ensembleProbability (ts.map (Node.rn f)) (x.rn f) = (ensembleProbability ts x : Res (OMap F)).map (OMap.rn f) := by
  unfold ensembleProbability
  rw [rn_ensembleVotes hf, bind_map_res, map_bind_res]
  simp only [map_pure_res, DD.getProbabilityDistribution_rn hf]

theorem rn_ensembleTrain (param : Node.SubsetParam) (draws : Nat → List Nat) (old : List (Node F)) (l : IList F) (size : Int) :
    ensembleTrain param draws (old.map (Node.rn f)) (l.map (Inst.rn f)) size =
      (ensembleTrain param draws old l size).map (List.map (Node.rn f)) := by
  unfold ensembleTrain
  refine foldlM_equiv' (List.map (Node.rn f)) _ _ _ old (fun i _ ts => ?_)
  simp only [rn_bootstrap, List.length_map, Node.rn_grow hf, bind_map_res, map_bind_res, map_pure_res, List.map_append,
    List.map_cons, List.map_nil]

end
end Verif
