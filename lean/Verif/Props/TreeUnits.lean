import Verif.Props.UnitsGauss
import Verif.Props.TreeOrder

/-! # Property C156: decision trees do not depend on units and on the names of values -/

set_option linter.unusedSectionVars false

namespace Verif
open Dbl

/-! ## loops over recoded lists -/

theorem foldlM_sim {α β σ τ : Type} (U : α → β) (R : σ → τ → Prop) (f : σ → α → Res σ) (g : τ → β → Res τ) :
    ∀ (l : List α), (∀ x ∈ l, ∀ s t s', R s t → f s x = .ok s' → ∃ t', g t (U x) = .ok t' ∧ R s' t') →
    ∀ s t s', R s t → l.foldlM f s = .ok s' → ∃ t', (l.map U).foldlM g t = .ok t' ∧ R s' t' := by
  intro l
  induction l with
  | nil => intro _ s t s' hR h; cases h; exact ⟨t, rfl, hR⟩
  | cons x l ih =>
    intro hs s t s' hR h
    rw [List.foldlM_cons, bind_ok_iff] at h
    obtain ⟨u, hu, h⟩ := h
    obtain ⟨t1, e1, hR1⟩ := hs x (by simp) s t u hR hu
    obtain ⟨t2, e2, hR2⟩ := ih (fun y hy => hs y (by simp [hy])) u t1 s' hR1 h
    exact ⟨t2, by rw [List.map_cons, List.foldlM_cons, e1, res_bind_ok, e2], hR2⟩

theorem mapM_ok_mem {α β : Type} {f : α → Res β} {l : List α} {ys : List β} (h : l.mapM f = .ok ys) {y : β}
    (hy : y ∈ ys) : ∃ x ∈ l, f x = .ok y := by
  replace h := mapM_ok_inv h
  induction h with
  | nil => cases hy
  | cons h1 _ ih =>
    rcases List.mem_cons.1 hy with rfl | hy
    · exact ⟨_, by simp, h1⟩
    · obtain ⟨x, hx, e⟩ := ih hy
      exact ⟨x, by simp [hx], e⟩

theorem mapM_sim {α β γ δ : Type} (U : α → β) (V : γ → δ) (f : α → Res γ) (g : β → Res δ) :
    ∀ (l : List α) (r : List γ), (∀ x ∈ l, ∀ y, f x = .ok y → g (U x) = .ok (V y)) →
    l.mapM f = .ok r → (l.map U).mapM g = .ok (r.map V) := by
  intro l
  induction l with
  | nil => intro r _ h; cases h; rfl
  | cons x l ih =>
    intro r hs h
    rw [List.mapM_cons] at h
    simp only [bind_ok_iff] at h
    obtain ⟨y, hy, ys, hys, h⟩ := h
    cases h
    rw [List.map_cons, List.mapM_cons, hs x (by simp) y hy, res_bind_ok, ih ys (fun z hz => hs z (by simp [hz])) hys]
    rfl

section
variable {a b : Nat → ℝ} {r : Nat → String → String}

/-! ## one instance -/

@[simp] theorem recode_label (x : Inst ℝ) : (recode a b r x).label = x.label := rfl
@[simp] theorem recode_possibleLabels (x : Inst ℝ) : (recode a b r x).possibleLabels = x.possibleLabels := rfl
@[simp] theorem recode_isComposite (x : Inst ℝ) : (recode a b r x).isComposite = x.isComposite := rfl

theorem recode_getAttribute (x : Inst ℝ) (i : Nat) :
    (recode a b r x).getAttribute i = (x.getAttribute i).map (fun t => t.recode (a i) (b i) (r i)) := by
  simp only [Inst.getAttribute, recode, atR, List.getElem?_mapIdx]
  cases x.attrs[i]? <;> rfl

theorem typeOf_recode (t : Attr ℝ) (p q : ℝ) (s : String → String) : typeOf (t.recode p q s) = typeOf t := by
  cases t <;> rfl

theorem typesOf_recode (x : Inst ℝ) : typesOf (recode a b r x) = typesOf x := by
  unfold typesOf recode
  apply List.ext_getElem?
  intro i
  simp only [List.getElem?_map, List.getElem?_mapIdx, Option.map_map]
  congr 1
  funext t
  exact typeOf_recode _ _ _ _

theorem recode_contAt (x : Inst ℝ) (i : Nat) :
    (recode a b r x).contAt i = (x.contAt i).map (fun v => a i * v + b i) := by
  unfold Inst.contAt
  rw [recode_getAttribute]
  cases x.getAttribute i with
  | error e => rfl
  | ok t => cases t <;> rfl

theorem recode_discAt (x : Inst ℝ) (i : Nat) : (recode a b r x).discAt i = (x.discAt i).map (r i) := by
  unfold Inst.discAt
  rw [recode_getAttribute]
  cases x.getAttribute i with
  | error e => rfl
  | ok t => cases t <;> rfl

theorem recode_indexAt (x : Inst ℝ) (i : Nat) : (recode a b r x).indexAt i = x.indexAt i := by
  unfold Inst.indexAt
  rw [recode_getAttribute]
  cases x.getAttribute i with
  | error e => rfl
  | ok t => cases t <;> rfl

/-! ## recoded trees -/

/-- the same condition about recoded instances -/
noncomputable def Cond.recode (a b : Nat → ℝ) (r : Nat → String → String) (c : Cond ℝ) : Cond ℝ :=
  { c with value := match c.value with
    | some (.continuous v) => some (.continuous (a c.attr.toNat * v + b c.attr.toNat))
    | some (.discrete s) => some (.discrete (r c.attr.toNat s))
    | t => t }

mutual
/-- the same tree with recoded conditions -/
noncomputable def Node.recode (a b : Nat → ℝ) (r : Nat → String → String) : Node ℝ → Node ℝ
  | .mk c l s d ch => .mk (c.recode a b r) l s d (Node.recodeIn a b r ch)
/-- the same children with recoded conditions -/
noncomputable def Node.recodeIn (a b : Nat → ℝ) (r : Nat → String → String) : List (Node ℝ) → List (Node ℝ)
  | [] => []
  | n :: ns => Node.recode a b r n :: Node.recodeIn a b r ns
end

theorem recodeIn_eq (ch : List (Node ℝ)) : Node.recodeIn a b r ch = ch.map (Node.recode a b r) := by
  induction ch with
  | nil => rw [Node.recodeIn]; rfl
  | cons n ns ih => rw [Node.recodeIn, ih]; rfl

theorem Node.recode_cond (n : Node ℝ) : (n.recode a b r).cond = n.cond.recode a b r := by
  cases n; rw [Node.recode]; rfl

theorem satisfy_recode (ha : ∀ i, 0 < a i) (hr : ∀ i, Function.Injective (r i)) (c : Cond ℝ) (x : Inst ℝ) :
    (c.recode a b r).satisfy (Verif.recode a b r x) = c.satisfy x := by
  obtain ⟨i, cmp, value⟩ := c
  cases value with
  | none => rfl
  | some t =>
    have hat : ∀ v, Cond.attrOf ⟨i, cmp, v⟩ (Verif.recode a b r x) =
        (Cond.attrOf ⟨i, cmp, some t⟩ x).map (fun t => t.recode (a i.toNat) (b i.toNat) (r i.toNat)) := by
      intro v
      unfold Cond.attrOf
      simp only
      split
      · rfl
      · exact recode_getAttribute x _
    cases t with
    | continuous v =>
      simp only [Cond.recode, Cond.satisfy, hat]
      have h := ha i.toNat
      cases Cond.attrOf ⟨i, cmp, some (.continuous v)⟩ x with
      | error e => rfl
      | ok t =>
        cases t with
        | continuous w =>
          simp only [Except.map, res_bind_ok, Attr.recode, Attr.contVal, res_pure, le_real, lt_real]
          have h1 : (a i.toNat * w + b i.toNat ≤ a i.toNat * v + b i.toNat) = (w ≤ v) := by
            simp [mul_le_mul_iff_right₀ h]
          have h2 : (a i.toNat * v + b i.toNat < a i.toNat * w + b i.toNat) = (v < w) := by
            simp [mul_lt_mul_iff_right₀ h]
          simp only [h1, h2]
        | discrete _ => rfl
        | binary _ => rfl
        | indexed _ _ _ => rfl
    | discrete v =>
      simp only [Cond.recode, Cond.satisfy, hat]
      cases Cond.attrOf ⟨i, cmp, some (.discrete v)⟩ x with
      | error e => rfl
      | ok t =>
        cases t <;> simp [Except.map, Attr.recode, Attr.discVal, (hr i.toNat).eq_iff]
    | binary v => rfl
    | indexed s k m =>
      simp only [Cond.recode, Cond.satisfy, hat]
      cases Cond.attrOf ⟨i, cmp, some (.indexed s k m)⟩ x with
      | error e => rfl
      | ok t => cases t <;> rfl

theorem satisfy_recode_eq (ha : ∀ i, 0 < a i) (hr : ∀ i, Function.Injective (r i)) (n : Node ℝ) (x : Inst ℝ) :
    (n.recode a b r).cond.satisfy (Verif.recode a b r x) = n.cond.satisfy x := by
  rw [Node.recode_cond, satisfy_recode ha hr]

mutual
theorem predictPlain_recode (ha : ∀ i, 0 < a i) (hr : ∀ i, Function.Injective (r i)) :
    ∀ (n : Node ℝ) (x : Inst ℝ), (n.recode a b r).predictPlain (Verif.recode a b r x) = n.predictPlain x
  | .mk c l s d ch, x => by
    rw [Node.recode, Node.predictPlain, Node.predictPlain, predictPlainIn_recode ha hr s ch x]
theorem predictPlainIn_recode (ha : ∀ i, 0 < a i) (hr : ∀ i, Function.Injective (r i)) (s : String) :
    ∀ (ch : List (Node ℝ)) (x : Inst ℝ), Node.predictPlainIn s (Node.recodeIn a b r ch) (Verif.recode a b r x) =
      Node.predictPlainIn s ch x
  | [], x => by rw [Node.recodeIn, Node.predictPlainIn, Node.predictPlainIn]
  | n :: ns, x => by
    rw [Node.recodeIn, Node.predictPlainIn, Node.predictPlainIn, satisfy_recode_eq ha hr,
      predictPlain_recode ha hr n x, predictPlainIn_recode ha hr s ns x]
end

mutual
theorem predictComposite_recode (ha : ∀ i, 0 < a i) (hr : ∀ i, Function.Injective (r i)) :
    ∀ (n : Node ℝ) (x : Inst ℝ), (n.recode a b r).predictComposite (Verif.recode a b r x) = n.predictComposite x
  | .mk c l s d ch, x => by
    rw [Node.recode, Node.predictComposite, Node.predictComposite, recode_possibleLabels,
      predictCompositeIn_recode ha hr _ ch x]
theorem predictCompositeIn_recode (ha : ∀ i, 0 < a i) (hr : ∀ i, Function.Injective (r i)) (s : String) :
    ∀ (ch : List (Node ℝ)) (x : Inst ℝ), Node.predictCompositeIn s (Node.recodeIn a b r ch) (Verif.recode a b r x) =
      Node.predictCompositeIn s ch x
  | [], x => by rw [Node.recodeIn, Node.predictCompositeIn, Node.predictCompositeIn]
  | n :: ns, x => by
    rw [Node.recodeIn, Node.predictCompositeIn, Node.predictCompositeIn, satisfy_recode_eq ha hr,
      predictComposite_recode ha hr n x, predictCompositeIn_recode ha hr s ns x]
end

mutual
theorem predictProbability_recode (ha : ∀ i, 0 < a i) (hr : ∀ i, Function.Injective (r i)) :
    ∀ (n : Node ℝ) (x : Inst ℝ), (n.recode a b r).predictProbability (Verif.recode a b r x) = n.predictProbability x
  | .mk c l s d ch, x => by
    rw [Node.recode, Node.predictProbability, Node.predictProbability, predictProbabilityIn_recode ha hr d ch x]
theorem predictProbabilityIn_recode (ha : ∀ i, 0 < a i) (hr : ∀ i, Function.Injective (r i)) (d : DD) :
    ∀ (ch : List (Node ℝ)) (x : Inst ℝ), Node.predictProbabilityIn d (Node.recodeIn a b r ch) (Verif.recode a b r x) =
      Node.predictProbabilityIn d ch x
  | [], x => by rw [Node.recodeIn, Node.predictProbabilityIn, Node.predictProbabilityIn]
  | n :: ns, x => by
    rw [Node.recodeIn, Node.predictProbabilityIn, Node.predictProbabilityIn, satisfy_recode_eq ha hr,
      predictProbability_recode ha hr n x, predictProbabilityIn_recode ha hr d ns x]
end

theorem treePredict_recode (ha : ∀ i, 0 < a i) (hr : ∀ i, Function.Injective (r i)) (n : Node ℝ) (x : Inst ℝ) :
    treePredict (n.recode a b r) (recode a b r x) = treePredict n x := by
  unfold treePredict Node.predict
  rw [recode_isComposite, recode_possibleLabels, predictPlain_recode ha hr, predictComposite_recode ha hr]

/-! ## lists -/

theorem recode_labels (l : IList ℝ) : (l.map (recode a b r)).map Inst.label = l.map Inst.label := by
  rw [List.map_map]; rfl

theorem recode_classLabels (l : IList ℝ) : IList.getClassLabels (l.map (recode a b r)) = IList.getClassLabels l := by
  rw [getClassLabels_eq, getClassLabels_eq, recode_labels]

theorem recode_distinct (l : IList ℝ) :
    IList.getDistinctClassLabels (l.map (recode a b r)) = IList.getDistinctClassLabels l := by
  unfold IList.getDistinctClassLabels
  rw [List.foldl_map]
  rfl

theorem recode_classDist (l : IList ℝ) : IList.classDistribution (l.map (recode a b r)) = IList.classDistribution l := by
  rw [classDistribution_eq, classDistribution_eq, recode_labels]

theorem recode_sort (ha : ∀ i, 0 < a i) {l s : IList ℝ} {i : Nat} (h : l.sortByAttribute i = .ok s) :
    IList.sortByAttribute (l.map (recode a b r)) i = .ok (s.map (recode a b r)) := by
  unfold IList.sortByAttribute at h ⊢
  rw [bind_ok_iff] at h
  obtain ⟨k, hk, h⟩ := h
  cases h
  rw [mapM_sim (recode a b r) (fun p : ℝ × Inst ℝ => (a i * p.1 + b i, recode a b r p.2)) _ _ l k ?_ hk, res_bind_ok,
    stableSort_map (fun p : ℝ × Inst ℝ => (a i * p.1 + b i, recode a b r p.2)) (fun p q => p.1 <. q.1)]
  · simp only [List.map_map]; rfl
  · intro p _ q _
    simp only [lt_real]
    have h2 : (a i * p.1 + b i < a i * q.1 + b i) = (p.1 < q.1) := by simp [mul_lt_mul_iff_right₀ (ha i)]
    simp only [h2]
  · intro x _ y hy
    rw [bind_ok_iff] at hy
    obtain ⟨v, hv, hy⟩ := hy
    cases hy
    rw [recode_contAt, hv]; rfl

theorem recode_valueList (hr : ∀ i, Function.Injective (r i)) {l : IList ℝ} {i : Nat} {vs : List String}
    (h : l.getAttributeValueList i = .ok vs) :
    IList.getAttributeValueList (l.map (recode a b r)) i = .ok (vs.map (r i)) := by
  unfold IList.getAttributeValueList at h ⊢
  obtain ⟨t, e, hR⟩ := foldlM_sim (recode a b r) (fun (s t : List String) => t = s.map (r i)) _
    (fun r x => do
      let v ← x.discAt i
      pure (if v ∈ r then r else r ++ [v])) l (by
      intro x _ s t s' hst h
      rw [bind_ok_iff] at h
      obtain ⟨v, hv, h⟩ := h
      cases h
      refine ⟨_, by rw [recode_discAt, hv]; rfl, ?_⟩
      subst hst
      by_cases hm : v ∈ s
      · simp [hm, (hr i).eq_iff]
      · simp [hm, (hr i).eq_iff]) [] [] vs rfl h
  rw [e, hR]

theorem idxOf_map_inj {f : String → String} (hf : Function.Injective f) (v : String) : ∀ l : List String,
    (l.map f).idxOf (f v) = l.idxOf v := by
  intro l
  induction l with
  | nil => rfl
  | cons w l ih =>
    simp only [List.map_cons, List.idxOf_cons, ih]
    by_cases h : w = v
    · simp [h]
    · rw [beq_false_of_ne h, beq_false_of_ne (fun e => h (hf e))]

theorem recode_attributeClassDist (hr : ∀ i, Function.Injective (r i)) {l : IList ℝ} {i : Nat} {ds : List DD}
    (h : l.attributeClassDistribution i = .ok ds) :
    IList.attributeClassDistribution (l.map (recode a b r)) i = .ok ds := by
  unfold IList.attributeClassDistribution at h ⊢
  rw [bind_ok_iff] at h
  obtain ⟨vs, hvs, h⟩ := h
  rw [recode_valueList hr hvs, res_bind_ok]
  obtain ⟨t, e, hR⟩ := foldlM_sim (recode a b r) (fun (s t : List DD) => t = s) _
    (fun ds x => do
      let v ← x.discAt i
      let k := (vs.map (r i)).idxOf v
      let d ← idxR ds k
      pure (ds.set k (d.addItem x.label))) l (by
      intro x _ s t s' hst h
      subst hst
      rw [bind_ok_iff] at h
      obtain ⟨v, hv, h⟩ := h
      refine ⟨s', ?_, rfl⟩
      rw [recode_discAt, hv]
      simp only [Except.map, res_bind_ok, idxOf_map_inj (hr i), recode_label]
      exact h) _ _ ds rfl h
  rw [hR] at e
  rw [← e, List.length_map]

theorem recode_indexedDist {l : IList ℝ} {i : Nat} {k : Int} :
    IList.discreteIndexedAttributeClassDistribution (l.map (recode a b r)) i k =
      l.discreteIndexedAttributeClassDistribution i k := by
  unfold IList.discreteIndexedAttributeClassDistribution
  rw [List.foldlM_map]
  simp only [recode_indexAt, recode_label]

/-! ## partitions -/

/-- all instances of all parts have the types `ts` -/
def PartsTyped (ts : List AttrType) (ps : Parts ℝ) : Prop := ∀ p ∈ ps, ∀ x ∈ p, typesOf x = ts

theorem recode_addTo {ts : List AttrType} {ps qs : Parts ℝ} (hp : PartsTyped ts ps) {k : Nat} {x : Inst ℝ}
    (hx : typesOf x = ts) (h : Parts.addTo ps k x = .ok qs) :
    Parts.addTo (ps.map (List.map (recode a b r))) k (recode a b r x) = .ok (qs.map (List.map (recode a b r))) ∧
      PartsTyped ts qs := by
  unfold Parts.addTo at h ⊢
  rw [bind_ok_iff] at h
  obtain ⟨p, hpk, h⟩ := h
  cases h
  have hk := atR_eq_ok.1 hpk
  constructor
  · rw [show atR (ps.map (List.map (recode a b r))) k = .ok (p.map (recode a b r)) from
      atR_eq_ok.2 (by rw [List.getElem?_map, hk]; rfl), res_bind_ok, List.map_set]
    simp [IList.add]
  · intro q hq y hy
    rcases List.mem_or_eq_of_mem_set hq with hq | rfl
    · exact hp q hq y hy
    · rcases List.mem_append.1 hy with hy | hy
      · exact hp p (List.mem_of_getElem? hk) y hy
      · rw [List.mem_singleton.1 hy]; exact hx

/-- the parts of the recoded list are the recoded parts -/
def PartsRel (a b : Nat → ℝ) (r : Nat → String → String) (ts : List AttrType) (ps qs : Parts ℝ) : Prop :=
  qs = ps.map (List.map (recode a b r)) ∧ PartsTyped ts ps

theorem recode_byDiscrete (hr : ∀ i, Function.Injective (r i)) {ts : List AttrType} {l : IList ℝ}
    (hts : ∀ x ∈ l, typesOf x = ts) {i : Nat} {ps : Parts ℝ} (h : Parts.byDiscrete l i = .ok ps) :
    Parts.byDiscrete (l.map (recode a b r)) i = .ok (ps.map (List.map (recode a b r))) ∧ PartsTyped ts ps := by
  unfold Parts.byDiscrete at h ⊢
  rw [bind_ok_iff] at h
  obtain ⟨vs, hvs, h⟩ := h
  rw [recode_valueList hr hvs, res_bind_ok]
  obtain ⟨t, e, hR, hT⟩ := foldlM_sim (recode a b r) (PartsRel a b r ts) _
    (fun ps x => do
      let v ← x.discAt i
      Parts.addTo ps ((vs.map (r i)).idxOf v) x) l (by
      intro x hx s t s' hst h
      rw [bind_ok_iff] at h
      obtain ⟨v, hv, h⟩ := h
      obtain ⟨e1, e2⟩ := recode_addTo (a := a) (b := b) (r := r) hst.2 (hts x hx) h
      refine ⟨_, ?_, rfl, e2⟩
      rw [recode_discAt, hv, hst.1]
      simp only [Except.map, res_bind_ok, idxOf_map_inj (hr i)]
      exact e1) (vs.map (fun _ => [])) ((vs.map (r i)).map (fun _ => [])) ps
      ⟨by rw [List.map_map, List.map_map]; rfl, by intro p hp x hx; simp only [List.mem_map] at hp; obtain ⟨_, _, rfl⟩ := hp; simp at hx⟩ h
  rw [e, hR]
  exact ⟨rfl, hT⟩

theorem recode_two {ts : List AttrType} {l : IList ℝ} (hts : ∀ x ∈ l, typesOf x = ts)
    {f g : Parts ℝ → Inst ℝ → Res (Parts ℝ)}
    (hfg : ∀ x ∈ l, ∀ s s', f s x = .ok s' → ∃ k, Parts.addTo s k x = .ok s' ∧
      ∀ s, g s (recode a b r x) = Parts.addTo s k (recode a b r x))
    {ps : Parts ℝ} (h : l.foldlM f [[], []] = .ok ps) :
    (l.map (recode a b r)).foldlM g [[], []] = .ok (ps.map (List.map (recode a b r))) ∧ PartsTyped ts ps := by
  obtain ⟨t, e, hR, hT⟩ := foldlM_sim (recode a b r) (PartsRel a b r ts) f g l (by
      intro x hx s t s' hst h
      obtain ⟨k, e0, eg⟩ := hfg x hx s s' h
      obtain ⟨e1, e2⟩ := recode_addTo (a := a) (b := b) (r := r) hst.2 (hts x hx) e0
      refine ⟨_, ?_, rfl, e2⟩
      rw [eg, hst.1]
      exact e1) [[], []] [[], []] ps ⟨by simp, by intro p hp x hx; simp at hp; subst hp; simp at hx⟩ h
  rw [e, hR]
  exact ⟨rfl, hT⟩

theorem recode_byIndexed {ts : List AttrType} {l : IList ℝ} (hts : ∀ x ∈ l, typesOf x = ts) {i : Nat} {k : Int}
    {ps : Parts ℝ} (h : Parts.byIndexed l i k = .ok ps) :
    Parts.byIndexed (l.map (recode a b r)) i k = .ok (ps.map (List.map (recode a b r))) ∧ PartsTyped ts ps := by
  refine recode_two hts ?_ h
  intro x _ s s' hs
  rw [bind_ok_iff] at hs
  obtain ⟨v, hv, hs⟩ := hs
  by_cases hvk : v = k
  · exact ⟨0, by simpa [hvk] using hs, by intro s; rw [recode_indexAt, hv]; simp [hvk]⟩
  · exact ⟨1, by simpa [hvk] using hs, by intro s; rw [recode_indexAt, hv]; simp [hvk]⟩

theorem recode_byThreshold (ha : ∀ i, 0 < a i) {ts : List AttrType} {l : IList ℝ} (hts : ∀ x ∈ l, typesOf x = ts)
    {i : Nat} {t : ℝ} {ps : Parts ℝ} (h : Parts.byThreshold l i t = .ok ps) :
    Parts.byThreshold (l.map (recode a b r)) i (a i * t + b i) = .ok (ps.map (List.map (recode a b r))) ∧
      PartsTyped ts ps := by
  refine recode_two hts ?_ h
  intro x _ s s' hs
  rw [bind_ok_iff] at hs
  obtain ⟨v, hv, hs⟩ := hs
  have e : (a i * v + b i ≤ a i * t + b i) = (v ≤ t) := by simp [mul_le_mul_iff_right₀ (ha i)]
  by_cases hvt : v ≤ t
  · exact ⟨0, by simpa [hvt] using hs, by intro s; rw [recode_contAt, hv]; simp [Except.map, hvt, e]⟩
  · exact ⟨1, by simpa [hvt] using hs, by intro s; rw [recode_contAt, hv]; simp [Except.map, hvt, e]⟩

/-! ## the search for a split -/

/-- the best split so far, found in recoded data: the threshold is recoded, if it matters -/
structure BestRel (a b : Nat → ℝ) (ts : List AttrType) (s t : Node.Best ℝ) : Prop where
  entropy : t.entropy = s.entropy
  attr : t.attr = s.attr
  k : t.k = s.k
  v : ∀ i, s.attr = some i → ts[i]? = some .continuous → t.v = a i * s.v + b i

theorem recode_searchIndexed {ts : List AttrType} {l : IList ℝ} {i : Nat} (hi : ts[i]? = some .discreteIndexed)
    {st st' t : DD × Node.Best ℝ} (h1 : t.1 = st.1) (h2 : BestRel a b ts st.2 t.2) {k : Nat}
    (h : Node.indexedStep l i st k = .ok st') :
    ∃ t', Node.indexedStep (l.map (recode a b r)) i t k = .ok t' ∧ t'.1 = st'.1 ∧ BestRel a b ts st'.2 t'.2 := by
  unfold Node.indexedStep at h ⊢
  rw [recode_indexedDist]
  rw [bind_ok_iff] at h
  obtain ⟨d, hd, h⟩ := h
  cases h
  rw [hd, res_bind_ok]
  refine ⟨_, rfl, ?_⟩
  rw [h1, h2.entropy, List.length_map]
  split
  · refine ⟨rfl, ?_⟩
    simp only
    split
    · exact ⟨rfl, rfl, rfl, fun j hj hc => by cases hj; rw [hi] at hc; cases hc⟩
    · exact h2
  · exact ⟨h1, h2⟩

/-- the sweep through recoded data -/
structure SweepRel (a b : Nat → ℝ) (ts : List AttrType) (i : Nat) (s t : Node.Sweep ℝ) : Prop where
  prev : t.prev = s.prev.map (fun v => a i * v + b i)
  left : t.left = s.left
  right : t.right = s.right
  best : BestRel a b ts s.best t.best

theorem recode_sweep (ha : ∀ i, 0 < a i) {ts : List AttrType} {n i : Nat} {s s' t : Node.Sweep ℝ}
    (hst : SweepRel a b ts i s t) {x : Inst ℝ} (h : Node.sweepStep n i s x = .ok s') :
    ∃ t', Node.sweepStep n i t (recode a b r x) = .ok t' ∧ SweepRel a b ts i s' t' := by
  unfold Node.sweepStep at h ⊢
  rw [bind_ok_iff] at h
  obtain ⟨v, hv, h⟩ := h
  cases h
  rw [recode_contAt, hv]
  refine ⟨_, rfl, ?_⟩
  have key : SweepRel a b ts i (Node.sweepValue n i s v) (Node.sweepValue n i t (a i * v + b i)) := by
    obtain ⟨prev, left, right, best⟩ := s
    obtain ⟨prev', left', right', best'⟩ := t
    obtain ⟨h1, h2, h3, hb⟩ := hst
    simp only at h1 h2 h3 hb
    subst h1 h2 h3
    cases prev with
    | none => exact ⟨rfl, rfl, rfl, hb⟩
    | some p =>
      simp only [Node.sweepValue, Option.map_some, Node.sweepSplit]
      have e : (a i * v + b i = a i * p + b i) = (v = p) := by simp [(ha i).ne']
      by_cases hvp : v = p
      · subst hvp; simp only [eq_real, decide_true, Bool.true_eq_false, if_false]; exact ⟨rfl, rfl, rfl, hb⟩
      · simp only [eq_real, e, hvp, decide_false, if_true]
        refine ⟨rfl, rfl, rfl, ?_⟩
        simp only [hb.entropy]
        split
        · refine ⟨rfl, rfl, hb.k, ?_⟩
          intro j hj _
          cases hj
          simp only [add_real, div_real]
          have h2 : ((Dbl.ofInt 2 : ℝ)) = 2 := by simp
          rw [h2]; ring
        · exact hb
  exact ⟨key.prev, by simp only [key.left]; rfl, by simp only [key.right]; rfl, key.best⟩

/-- the search in recoded data -/
structure SearchRel (a b : Nat → ℝ) (r : Nat → String → String) (ts : List AttrType) (s t : Node.Search ℝ) : Prop where
  data : t.data = s.data.map (recode a b r)
  typed : ∀ x ∈ s.data, typesOf x = ts
  dist : t.classDist = s.classDist
  best : BestRel a b ts s.best t.best

theorem recode_search (ha : ∀ i, 0 < a i) (hr : ∀ i, Function.Injective (r i)) {ts : List AttrType}
    {s s' t : Node.Search ℝ} (hst : SearchRel a b r ts s t) {i : Nat} (h : Node.searchStep s i = .ok s') :
    ∃ t', Node.searchStep t i = .ok t' ∧ SearchRel a b r ts s' t' := by
  obtain ⟨data, cd, best⟩ := s
  obtain ⟨data', cd', best'⟩ := t
  obtain ⟨h1, hty, h2, hb⟩ := hst
  simp only at h1 hty h2 hb
  subst h1 h2
  unfold Node.searchStep at h ⊢
  simp only [bind_ok_iff] at h
  obtain ⟨x0, hx0, at0, hat, h⟩ := h
  have hx0d := atR_eq_ok.1 hx0
  have hti := type_of_attr (hty x0 (List.mem_of_getElem? hx0d)) hat
  simp only [show atR (data.map (recode a b r)) 0 = .ok (recode a b r x0) from
    atR_eq_ok.2 (by rw [List.getElem?_map, hx0d]; rfl), res_bind_ok, recode_getAttribute, hat, Except.map]
  unfold Node.searchKind at h ⊢
  cases at0 with
  | indexed v j m =>
    simp only [Attr.recode, Attr.isDiscreteIndexed, if_true, Attr.getMaxIndex, res_bind_ok] at h ⊢
    unfold Node.searchIndexed at h ⊢
    rw [bind_ok_iff] at h
    obtain ⟨q, hq, h⟩ := h
    cases h
    obtain ⟨t, e, e1, e2⟩ := foldlM_sim id (fun (st t : DD × Node.Best ℝ) => t.1 = st.1 ∧ BestRel a b ts st.2 t.2) _
      (Node.indexedStep (data.map (recode a b r)) i) (List.range m.toNat) (by
        intro k _ st t st' hst h
        obtain ⟨t', e1, e2⟩ := recode_searchIndexed (r := r) hti hst.1 hst.2 h
        exact ⟨t', e1, e2⟩) (cd', best) (cd', best') q ⟨rfl, hb⟩ hq
    rw [List.map_id] at e
    rw [e]
    exact ⟨_, rfl, rfl, hty, e1, e2⟩
  | discrete v =>
    simp only [Attr.recode, Attr.isDiscreteIndexed, Attr.isDiscrete, Bool.false_eq_true, if_false, if_true] at h ⊢
    unfold Node.searchDiscrete Node.entropyForDiscreteAttribute at h ⊢
    simp only [bind_ok_iff] at h
    obtain ⟨e, ⟨ds, hds, he⟩, h⟩ := h
    cases he; cases h
    simp only [recode_attributeClassDist hr hds, res_bind_ok, res_pure, List.length_map, hb.entropy]
    refine ⟨_, rfl, rfl, hty, rfl, ?_⟩
    simp only
    split
    · exact ⟨rfl, rfl, hb.k, fun j hj hc => by cases hj; rw [hti] at hc; cases hc⟩
    · exact hb
  | continuous v =>
    simp only [Attr.recode, Attr.isDiscreteIndexed, Attr.isDiscrete, Attr.isContinuous, Bool.false_eq_true, if_false, if_true] at h ⊢
    unfold Node.searchContinuous at h ⊢
    simp only [bind_ok_iff] at h
    obtain ⟨so, hso, q, hq, h⟩ := h
    cases h
    obtain ⟨t, e, hR⟩ := foldlM_sim (recode a b r) (SweepRel a b ts i) _ (Node.sweepStep so.length i) so
      (fun x _ s t s' hst h => recode_sweep ha hst h) ⟨none, so.classDistribution, DD.empty, best⟩
      ⟨none, so.classDistribution, DD.empty, best'⟩ q ⟨rfl, rfl, rfl, hb⟩ hq
    have hso' := hso
    unfold IList.sortByAttribute at hso'
    rw [bind_ok_iff] at hso'
    obtain ⟨ks, hks, hso'⟩ := hso'
    cases hso'
    simp only [recode_sort ha hso, res_bind_ok, recode_classDist, List.length_map] at e ⊢
    rw [e]
    refine ⟨_, rfl, rfl, ?_, rfl, hR.best⟩
    intro x hx
    simp only [List.mem_map] at hx
    obtain ⟨p, hp, rfl⟩ := hx
    have hp := (stableSort_perm _ _).mem_iff.1 hp
    obtain ⟨y, hy, e⟩ := mapM_ok_mem hks hp
    rw [bind_ok_iff] at e
    obtain ⟨_, _, e⟩ := e
    cases e
    exact hty y hy
  | binary v =>
    simp only [Attr.recode, Attr.isDiscreteIndexed, Attr.isDiscrete, Attr.isContinuous, Bool.false_eq_true, if_false] at h ⊢
    cases h
    exact ⟨_, rfl, rfl, hty, rfl, hb⟩

/-! ## growing -/

/-- the recursion on recoded data grows the recoded tree -/
def RecRel (a b : Nat → ℝ) (r : Nat → String → String) (ts : List AttrType)
    (rec : IList ℝ → Cond ℝ → Res (Node ℝ)) : Prop :=
  ∀ (d : IList ℝ) (c : Cond ℝ) (n : Node ℝ), (∀ x ∈ d, typesOf x = ts) → rec d c = .ok n →
    rec (d.map (recode a b r)) (c.recode a b r) = .ok (n.recode a b r)

theorem recode_at {ps : Parts ℝ} {k : Nat} {p : IList ℝ} (h : atR ps k = .ok p) :
    atR (ps.map (List.map (recode a b r))) k = .ok (p.map (recode a b r)) :=
  atR_eq_ok.2 (by rw [List.getElem?_map, atR_eq_ok.1 h]; rfl)

theorem recode_children (ha : ∀ i, 0 < a i) (hr : ∀ i, Function.Injective (r i)) {ts : List AttrType}
    {rec : IList ℝ → Cond ℝ → Res (Node ℝ)} (hrec : RecRel a b r ts rec) {data : IList ℝ}
    (hts : ∀ x ∈ data, typesOf x = ts) {B B' : Node.Best ℝ} (hB : BestRel a b ts B B') {i : Nat} (hi : B.attr = some i)
    {t : Attr ℝ} (ht : ts[i]? = some (typeOf t)) {ch : List (Node ℝ)} (h : Node.childrenKind rec data B i t = .ok ch) :
    Node.childrenKind rec (data.map (recode a b r)) B' i (t.recode (a i) (b i) (r i)) = .ok (ch.map (Node.recode a b r)) := by
  unfold Node.childrenKind at h ⊢
  cases t with
  | indexed v j m =>
    simp only [Attr.recode, Attr.isDiscreteIndexed, if_true, Attr.getMaxIndex, res_bind_ok, hB.k] at h ⊢
    unfold Node.childrenIndexed at h ⊢
    simp only [bind_ok_iff] at h
    obtain ⟨ps, hps, p0, hp0, c0, hc0, p1, hp1, c1, hc1, h⟩ := h
    cases h
    obtain ⟨e1, e2⟩ := recode_byIndexed (a := a) (b := b) (r := r) hts hps
    have r0 := hrec _ _ _ (e2 _ (List.mem_of_getElem? (atR_eq_ok.1 hp0))) hc0
    have r1 := hrec _ _ _ (e2 _ (List.mem_of_getElem? (atR_eq_ok.1 hp1))) hc1
    simp only [Cond.recode] at r0 r1
    simp only [e1, res_bind_ok, recode_at hp0, r0, recode_at hp1, r1, res_pure, List.map_cons, List.map_nil]
  | discrete v =>
    simp only [Attr.recode, Attr.isDiscreteIndexed, Attr.isDiscrete, Bool.false_eq_true, if_false, if_true] at h ⊢
    unfold Node.childrenDiscrete at h ⊢
    simp only [bind_ok_iff] at h
    obtain ⟨vs, hvs, ps, hps, h⟩ := h
    obtain ⟨e1, e2⟩ := recode_byDiscrete (a := a) (b := b) (r := r) hr hts hps
    simp only [recode_valueList hr hvs, e1, res_bind_ok, List.zipIdx_map]
    refine mapM_sim (Prod.map (r i) id) (Node.recode a b r) _ _ _ _ ?_ h
    rintro ⟨w, k⟩ _ n hn
    unfold Node.childDiscrete at hn ⊢
    rw [bind_ok_iff] at hn
    obtain ⟨p, hp, hn⟩ := hn
    have := hrec _ _ _ (e2 _ (List.mem_of_getElem? (atR_eq_ok.1 hp))) hn
    simp only [Cond.recode, Int.toNat_natCast] at this
    simp only [Prod.map_snd, Prod.map_fst, id, recode_at hp, res_bind_ok, this]
  | continuous v =>
    simp only [Attr.recode, Attr.isDiscreteIndexed, Attr.isDiscrete, Attr.isContinuous, Bool.false_eq_true, if_false, if_true] at h ⊢
    unfold Node.childrenContinuous at h ⊢
    simp only [bind_ok_iff] at h
    obtain ⟨ps, hps, p0, hp0, c0, hc0, p1, hp1, c1, hc1, h⟩ := h
    cases h
    obtain ⟨e1, e2⟩ := recode_byThreshold (a := a) (b := b) (r := r) ha hts hps
    have r0 := hrec _ _ _ (e2 _ (List.mem_of_getElem? (atR_eq_ok.1 hp0))) hc0
    have r1 := hrec _ _ _ (e2 _ (List.mem_of_getElem? (atR_eq_ok.1 hp1))) hc1
    simp only [Cond.recode, Int.toNat_natCast] at r0 r1
    simp only [hB.v i hi ht, e1, res_bind_ok, recode_at hp0, r0, recode_at hp1, r1, res_pure, List.map_cons, List.map_nil]
  | binary v =>
    simp only [Attr.recode, Attr.isDiscreteIndexed, Attr.isDiscrete, Attr.isContinuous, Bool.false_eq_true, if_false] at h ⊢
    cases h; rfl

theorem recode_grow (ha : ∀ i, 0 < a i) (hr : ∀ i, Function.Injective (r i)) {ts : List AttrType}
    (param : Node.SubsetParam) (st : Bool) : ∀ fuel : Nat, RecRel a b r ts (Node.grow param st fuel) := by
  intro fuel
  induction fuel with
  | zero => intro d c n _ h; cases h
  | succ fuel ih =>
    intro data c n hts h
    rw [Node.grow] at h ⊢
    simp only [recode_classLabels, recode_distinct] at h ⊢
    have hc : (c.recode a b r).attr = c.attr := rfl
    split at h
    · rename_i h1
      cases h
      rw [if_pos h1, Node.recode, Node.recodeIn]
    · rename_i h1
      rw [if_neg h1]
      split at h
      · rename_i h2
        cases h
        rw [hc, if_pos h2, Node.recode, Node.recodeIn]
      · rename_i h2
        rw [hc, if_neg h2]
        unfold Node.splitNode at h ⊢
        simp only [bind_ok_iff] at h
        obtain ⟨x0, hx0, is, his, s, hs, h⟩ := h
        have hx0d := atR_eq_ok.1 hx0
        have hsz : (recode a b r x0).attributeSize = x0.attributeSize := by
          simp [Inst.attributeSize, recode]
        simp only [show atR (data.map (recode a b r)) 0 = .ok (recode a b r x0) from
          atR_eq_ok.2 (by rw [List.getElem?_map, hx0d]; rfl), res_bind_ok, hsz, his, recode_classDist]
        obtain ⟨t, e, hR⟩ := foldlM_sim id (SearchRel a b r ts) _ Node.searchStep is
          (fun i _ s t s' hst h => recode_search ha hr hst h)
          ⟨data, data.classDistribution, ⟨data.classDistribution.entropy, none, 0, Dbl.zero⟩⟩
          ⟨data.map (recode a b r), data.classDistribution, ⟨data.classDistribution.entropy, none, 0, Dbl.zero⟩⟩ s
          ⟨rfl, hts, rfl, rfl, rfl, rfl, by simp⟩ hs
        rw [List.map_id] at e
        rw [e, res_bind_ok]
        unfold Node.finish at h ⊢
        rw [hR.best.attr]
        cases hb : s.best.attr with
        | none =>
          rw [hb] at h
          cases h
          simp only [Node.recode, Node.recodeIn]
        | some i =>
          rw [hb] at h
          simp only [bind_ok_iff] at h
          obtain ⟨y0, hy0, at0, hat, ch, hch, h⟩ := h
          cases h
          have hy0d := atR_eq_ok.1 hy0
          simp only [hR.data, show atR (s.data.map (recode a b r)) 0 = .ok (recode a b r y0) from
            atR_eq_ok.2 (by rw [List.getElem?_map, hy0d]; rfl), res_bind_ok, recode_getAttribute, hat, Except.map,
            recode_children ha hr ih hR.typed hR.best hb (type_of_attr (hR.typed y0 (List.mem_of_getElem? hy0d)) hat) hch,
            res_pure, Node.recode, recodeIn_eq]

/-! ## pruning -/

theorem recode_stratified {ts : List AttrType} {l : IList ℝ} (hts : ∀ x ∈ l, typesOf x = ts) {ratio : ℝ}
    {arr : List Nat} {ps : Parts ℝ} (h : Parts.byRatioStratified l ratio arr = .ok ps) :
    Parts.byRatioStratified (l.map (recode a b r)) ratio arr = .ok (ps.map (List.map (recode a b r))) ∧
      PartsTyped ts ps := by
  unfold Parts.byRatioStratified at h ⊢
  simp only [List.length_map, recode_classDist] at h ⊢
  rw [bind_ok_iff] at h
  obtain ⟨st, hst, h⟩ := h
  cases h
  obtain ⟨t, e, h1, h2, h3⟩ := foldlM_sim id
    (fun (s t : Counter × Parts ℝ) => t.1 = s.1 ∧ PartsRel a b r ts s.2 t.2) _ (fun st i => do
      let q ← atR arr i
      let x ← IList.get (l.map (recode a b r)) q
      let ps ←
        if Dbl.ofNat (Counter.count st.1 x.label) <.
            (Dbl.ofNat l.length *. ratio *. (l.classDistribution.getProbability x.label : ℝ))
        then Parts.addTo st.2 0 x
        else Parts.addTo st.2 1 x
      pure (Counter.put st.1 x.label, ps)) (List.range l.length) (by
      intro k _ s t s' hst h
      simp only [bind_ok_iff] at h
      obtain ⟨q, hq, x, hx, h⟩ := h
      have hxl : l[q]? = some x := atR_eq_ok.1 hx
      have hx' : IList.get (l.map (recode a b r)) q = .ok (recode a b r x) :=
        atR_eq_ok.2 (by rw [List.getElem?_map, hxl]; rfl)
      simp only [id, hq, res_bind_ok, hx', recode_label, hst.1, hst.2.1]
      split at h
      · rename_i hc
        rw [bind_ok_iff] at h
        obtain ⟨ps, hps, h⟩ := h
        cases h
        obtain ⟨e1, e2⟩ := recode_addTo (a := a) (b := b) (r := r) hst.2.2 (hts x (List.mem_of_getElem? hxl)) hps
        exact ⟨(s.1.put x.label, ps.map (List.map (recode a b r))), (if_pos hc).trans (by rw [e1]; rfl), rfl, rfl, e2⟩
      · rename_i hc
        rw [bind_ok_iff] at h
        obtain ⟨ps, hps, h⟩ := h
        cases h
        obtain ⟨e1, e2⟩ := recode_addTo (a := a) (b := b) (r := r) hst.2.2 (hts x (List.mem_of_getElem? hxl)) hps
        exact ⟨(s.1.put x.label, ps.map (List.map (recode a b r))), (if_neg hc).trans (by rw [e1]; rfl), rfl, rfl, e2⟩) ([], [[], []]) ([], [[], []]) st
      ⟨rfl, by simp, by intro p hp x hx; simp at hp; subst hp; simp at hx⟩ hst
  rw [List.map_id] at e
  rw [e, res_bind_ok, h2]
  exact ⟨rfl, h3⟩

theorem recode_accuracy (ha : ∀ i, 0 < a i) (hr : ∀ i, Function.Injective (r i)) (l : IList ℝ) (n : Node ℝ) :
    treeAccuracy (l.map (recode a b r)) (n.recode a b r) = treeAccuracy l n := by
  unfold treeAccuracy testClassifier
  rw [List.foldlM_map, List.length_map]
  simp only [treePredict_recode ha hr, recode_label]
  rfl

mutual
theorem recode_pruneNode {acc acc' : Node ℝ → Res ℝ} (h : ∀ m, acc' (m.recode a b r) = acc m) :
    ∀ (n : Node ℝ) (ctx ctx' : Node ℝ → Node ℝ), (∀ m, ctx' (m.recode a b r) = (ctx m).recode a b r) →
    pruneNode acc' ctx' (n.recode a b r) = (pruneNode acc ctx n).map (Node.recode a b r)
  | .mk c l s d ch, ctx, ctx', hctx => by
    have e : ∀ l, acc' (ctx' (.mk (c.recode a b r) l s d (Node.recodeIn a b r ch))) = acc (ctx (.mk c l s d ch)) := by
      intro l
      rw [← h, ← hctx, Node.recode]
    rw [Node.recode, pruneNode, pruneNode]
    simp only [Node.setLeaf]
    split
    · simp only [Except.map, Node.recode]
    · rw [e, e]
      cases acc (ctx (.mk c l s d ch)) with
      | error _ => rfl
      | ok before =>
        cases acc (ctx (.mk c true s d ch)) with
        | error _ => rfl
        | ok after =>
          simp only [res_bind_ok]
          split
          · have := recode_pruneChildren h ch [] (fun ch => ctx (.mk c false s d ch))
              (fun ch => ctx' (.mk (c.recode a b r) false s d ch)) (by
                intro m; rw [← hctx, Node.recode, recodeIn_eq])
            simp only [List.map_nil] at this
            rw [this]
            cases pruneChildren acc (fun ch => ctx (.mk c false s d ch)) [] ch with
            | error _ => rfl
            | ok ch' => simp only [Except.map, res_bind_ok, Node.recode, recodeIn_eq]
          · simp only [Except.map, Node.recode]
theorem recode_pruneChildren {acc acc' : Node ℝ → Res ℝ} (h : ∀ m, acc' (m.recode a b r) = acc m) :
    ∀ (ch done : List (Node ℝ)) (ctx ctx' : List (Node ℝ) → Node ℝ),
    (∀ m : List (Node ℝ), ctx' (m.map (Node.recode a b r)) = (ctx m).recode a b r) →
    pruneChildren acc' ctx' (done.map (Node.recode a b r)) (Node.recodeIn a b r ch) =
      (pruneChildren acc ctx done ch).map (List.map (Node.recode a b r))
  | [], done, ctx, ctx', hctx => by
    rw [Node.recodeIn, pruneChildren, pruneChildren]; rfl
  | n :: ns, done, ctx, ctx', hctx => by
    rw [Node.recodeIn, pruneChildren, pruneChildren,
      recode_pruneNode h n (fun m => ctx (done ++ m :: ns)) _ (by
        intro m
        rw [← hctx, recodeIn_eq]; simp)]
    cases pruneNode acc (fun m => ctx (done ++ m :: ns)) n with
    | error _ => rfl
    | ok n' =>
      simp only [Except.map, res_bind_ok]
      have := recode_pruneChildren h ns (done ++ [n']) ctx ctx' hctx
      simp only [List.map_append, List.map_cons, List.map_nil] at this
      exact this
end

/-! ## the properties -/

theorem recode_treeTrain (ha : ∀ i, 0 < a i) (hr : ∀ i, Function.Injective (r i)) {ts : List AttrType} {data : IList ℝ}
    (hts : ∀ x ∈ data, typesOf x = ts) (pruning : Option (ℝ × List Nat)) {t : Node ℝ}
    (h : treeTrain data pruning = .ok t) :
    treeTrain (data.map (recode a b r)) pruning = .ok (t.recode a b r) := by
  cases pruning with
  | none =>
    unfold treeTrain at h ⊢
    simp only [List.length_map] at h ⊢
    exact recode_grow ha hr none false _ data Cond.root t hts h
  | some q =>
    obtain ⟨ratio, arr⟩ := q
    unfold treeTrain at h ⊢
    simp only [bind_ok_iff] at h
    obtain ⟨ps, hps, p1, hp1, root, hroot, p0, hp0, h⟩ := h
    obtain ⟨e1, e2⟩ := recode_stratified (a := a) (b := b) (r := r) hts hps
    have hg := recode_grow (a := a) (b := b) (r := r) ha hr none false _ p1 Cond.root root
      (e2 p1 (List.mem_of_getElem? (atR_eq_ok.1 hp1))) hroot
    have hroot' : (Cond.root : Cond ℝ).recode a b r = Cond.root := rfl
    rw [hroot'] at hg
    simp only [e1, res_bind_ok, recode_at hp1, recode_at hp0, List.length_map, hg]
    unfold prune at h ⊢
    rw [recode_pruneNode (recode_accuracy ha hr p0) root id id (fun _ => rfl), h]
    rfl

end

/-- **C156.** Decision trees, with or without pruning: train on data with the numbers in other units
(`v ↦ a i * v + b i`, `a i > 0`) and the values of discrete attributes renamed (`r i` one-to-one),
ask in the same words, and predictions and class probabilities are the same. -/
theorem C156_tree_units (data : IList ℝ) (ts : List AttrType) (hts : ∀ x ∈ data, typesOf x = ts)
    (a b : Nat → ℝ) (r : Nat → String → String) (ha : ∀ i, 0 < a i) (hr : ∀ i, Function.Injective (r i))
    (pruning : Option (ℝ × List Nat)) (t : Node ℝ) (h : treeTrain data pruning = .ok t) :
    ∃ t', treeTrain (data.map (recode a b r)) pruning = .ok t' ∧
      ∀ x, treePredict t' (recode a b r x) = treePredict t x ∧
        t'.predictProbability (recode a b r x) = t.predictProbability x :=
  ⟨_, recode_treeTrain ha hr hts pruning h, fun x => ⟨treePredict_recode ha hr t x, predictProbability_recode ha hr t x⟩⟩

/-- **C156.** The same for decision stumps. -/
theorem C156_stump_units (data : IList ℝ) (ts : List AttrType) (hts : ∀ x ∈ data, typesOf x = ts)
    (a b : Nat → ℝ) (r : Nat → String → String) (ha : ∀ i, 0 < a i) (hr : ∀ i, Function.Injective (r i))
    (t : Node ℝ) (h : stumpTrain data = .ok t) :
    ∃ t', stumpTrain (data.map (recode a b r)) = .ok t' ∧
      ∀ x, treePredict t' (recode a b r x) = treePredict t x ∧
        t'.predictProbability (recode a b r x) = t.predictProbability x := by
  refine ⟨t.recode a b r, ?_, fun x => ⟨treePredict_recode ha hr t x, predictProbability_recode ha hr t x⟩⟩
  unfold stumpTrain at h ⊢
  rw [List.length_map]
  exact recode_grow ha hr none true _ data Cond.root t hts h

theorem recode_bootstrap {a b : Nat → ℝ} {r : Nat → String → String} (l : IList ℝ) (draws : List Nat) :
    IList.bootstrap (l.map (recode a b r)) draws = (l.bootstrap draws).map (recode a b r) := by
  unfold IList.bootstrap
  rw [List.map_filterMap]
  congr 1
  funext i
  rw [List.getElem?_map]

/-- **C156.** The same for bagging and random forests, with the same random draws. -/
theorem C156_forest_units (data : IList ℝ) (ts : List AttrType) (hts : ∀ x ∈ data, typesOf x = ts)
    (a b : Nat → ℝ) (r : Nat → String → String) (ha : ∀ i, 0 < a i) (hr : ∀ i, Function.Injective (r i))
    (param : Node.SubsetParam) (draws : Nat → List Nat) (size : Int) (forest : List (Node ℝ))
    (h : ensembleTrain param draws [] data size = .ok forest) :
    ∃ forest', ensembleTrain param draws [] (data.map (recode a b r)) size = .ok forest' ∧
      ∀ x, ensemblePredict forest' (recode a b r x) = ensemblePredict forest x ∧
        ensembleProbability forest' (recode a b r x) = ensembleProbability forest x := by
  unfold ensembleTrain at h ⊢
  obtain ⟨f', e, hR⟩ := foldlM_sim id (fun (s t : List (Node ℝ)) => t = s.map (Node.recode a b r)) _ (fun forest i => do
    let sample := IList.bootstrap (data.map (recode a b r)) (draws i)
    let t ← Node.grow param false (sample.length + 1) sample Cond.root
    pure (forest ++ [t])) (List.range size.toNat) (by
      intro i _ s t s' hst h
      rw [bind_ok_iff] at h
      obtain ⟨n, hn, h⟩ := h
      cases h
      have hg := recode_grow (a := a) (b := b) (r := r) ha hr param false _ (data.bootstrap (draws i)) Cond.root n (by
        intro x hx
        obtain ⟨j, _, hj⟩ := List.mem_filterMap.1 hx
        exact hts x (List.mem_of_getElem? hj)) hn
      have hroot' : (Cond.root : Cond ℝ).recode a b r = Cond.root := rfl
      rw [hroot'] at hg
      simp only [id, recode_bootstrap, List.length_map, hg, res_bind_ok]
      exact ⟨_, rfl, by rw [hst]; simp⟩) [] [] forest rfl h
  rw [List.map_id] at e
  have hv : ∀ x, ensembleVotes f' (recode a b r x) = ensembleVotes forest x := by
    intro x
    unfold ensembleVotes
    rw [hR, List.foldlM_map]
    simp only [treePredict_recode ha hr]
  refine ⟨f', e, fun x => ?_⟩
  unfold ensemblePredict ensembleProbability
  rw [hv]
  exact ⟨rfl, rfl⟩

/-- feet instead of metres in column 0, other names in column 2 -/
example : ∃ t t', treeTrain (exOrder ℝ) none = .ok t ∧
    treeTrain ((exOrder ℝ).map (recode (fun _ => 3.28) (fun _ => 1) (fun _ s => "my " ++ s))) none = .ok t' ∧
    ∀ x, treePredict t' (recode (fun _ => 3.28) (fun _ => 1) (fun _ s => "my " ++ s) x) = treePredict t x := by
  have hts : ∀ x ∈ exOrder ℝ, typesOf x = [.continuous, .discreteIndexed, .discrete] := by
    intro x hx
    simp only [exOrder, List.mem_cons, List.not_mem_nil, or_false] at hx
    rcases hx with rfl | rfl | rfl <;> rfl
  obtain ⟨t, ht, _⟩ := grow_ok (param := none) (by intro _ _ h; cases h) (ts := [.continuous, .discreteIndexed, .discrete])
    rfl false ((exOrder ℝ).length + 1) (exOrder ℝ) Cond.root (by simp [exOrder]) hts (by omega)
  obtain ⟨t', h1, h2⟩ := C156_tree_units (exOrder ℝ) _ hts (fun _ => 3.28) (fun _ => 1) (fun _ s => "my " ++ s)
    (by intro i; norm_num) (by intro i s s' h; simpa using h) none t ht
  exact ⟨t, t', ht, h1, fun x => (h2 x).1⟩

/-- the hypotheses of the theorem on forests -/
example : ∃ forest, ensembleTrain none (fun i => [i, 2, 0]) [] (exOrder ℝ) 2 = .ok forest := by
  have hts : ∀ x ∈ exOrder ℝ, typesOf x = [.continuous, .discreteIndexed, .discrete] := by
    intro x hx
    simp only [exOrder, List.mem_cons, List.not_mem_nil, or_false] at hx
    rcases hx with rfl | rfl | rfl <;> rfl
  have hg : ∀ i, i < 2 → ∃ t, Node.grow none false (((exOrder ℝ).bootstrap [i, 2, 0]).length + 1)
      ((exOrder ℝ).bootstrap [i, 2, 0]) Cond.root = .ok t := by
    intro i hi
    obtain ⟨t, ht, _⟩ := grow_ok (param := none) (by intro _ _ h; cases h) (ts := [.continuous, .discreteIndexed, .discrete])
      rfl false (((exOrder ℝ).bootstrap [i, 2, 0]).length + 1) ((exOrder ℝ).bootstrap [i, 2, 0]) Cond.root
      (by match i, hi with | 0, _ => simp [exOrder, IList.bootstrap] | 1, _ => simp [exOrder, IList.bootstrap])
      (by
        intro x hx
        obtain ⟨j, _, hj⟩ := List.mem_filterMap.1 hx
        exact hts x (List.mem_of_getElem? hj)) (by omega)
    exact ⟨t, ht⟩
  obtain ⟨t0, h0⟩ := hg 0 (by omega)
  obtain ⟨t1, h1⟩ := hg 1 (by omega)
  refine ⟨[t0, t1], ?_⟩
  unfold ensembleTrain
  rw [show ((2 : Int).toNat) = 2 from rfl, show List.range 2 = [0, 1] from rfl]
  simp only [List.foldlM_cons, h0, res_pure, res_bind_ok, h1, List.foldlM_nil]
  rfl

end Verif
