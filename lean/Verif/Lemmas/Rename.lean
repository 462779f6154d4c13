import Verif.Spec.ClassNames
import Verif.Model.Learners
import Verif.Model.SoftTree
import Verif.Props.TreeUnits

/-! # Renaming the classes: how the data structures behave

`OrderRenaming f` says that `f` keeps the alphabetical order of labels and the empty label. -/

set_option linter.unusedSectionVars false

namespace Verif
open Dbl
variable {F : Type} [Dbl F]

/-! ## results -/

theorem map_bind_res {α β γ : Type} (m : Res α) (k : α → Res β) (V : β → γ) :
    (m >>= k).map V = m >>= fun a => (k a).map V := by cases m <;> rfl

theorem bind_map_res {α β γ : Type} (m : Res α) (V : α → β) (k : β → Res γ) :
    ((m.map V) >>= k) = m >>= fun a => k (V a) := by cases m <;> rfl

theorem map_ok_res {α β : Type} (a : α) (V : α → β) : (Except.ok a : Res α).map V = .ok (V a) := rfl

theorem map_pure_res {α β : Type} (a : α) (V : α → β) : (pure a : Res α).map V = pure (V a) := rfl

theorem map_error_res {α β : Type} (e : Err) (V : α → β) : (Except.error e : Res α).map V = .error e := rfl

theorem map_ite_res {α β : Type} (p : Prop) [Decidable p] (a b : Res α) (V : α → β) :
    (if p then a else b).map V = if p then a.map V else b.map V := by split <;> rfl

theorem bind_congr_res {α β : Type} {m : Res α} {k k' : α → Res β} (h : ∀ a, m = .ok a → k a = k' a) :
    (m >>= k) = m >>= k' := by
  cases m with
  | error e => rfl
  | ok a => exact h a rfl

theorem map_map_res {α β γ : Type} (m : Res α) (V : α → β) (W : β → γ) : (m.map V).map W = m.map (fun a => W (V a)) := by
  cases m <;> rfl

theorem map_id_res {α : Type} (m : Res α) : m.map (fun a => a) = m := by cases m <;> rfl

theorem foldlM_equiv {α β σ τ : Type} (U : α → β) (V : σ → τ) (k : σ → α → Res σ) (g : τ → β → Res τ) :
    ∀ (l : List α) (s : σ), (∀ x ∈ l, ∀ s, g (V s) (U x) = (k s x).map V) →
    (l.map U).foldlM g (V s) = (l.foldlM k s).map V := by
  intro l
  induction l with
  | nil => intro s _; rfl
  | cons x l ih =>
    intro s h
    rw [List.map_cons, List.foldlM_cons, List.foldlM_cons, h x (by simp), bind_map_res, map_bind_res]
    exact bind_congr_res (fun a _ => ih a (fun y hy => h y (by simp [hy])))

theorem foldlM_equiv' {α σ τ : Type} (V : σ → τ) (k : σ → α → Res σ) (g : τ → α → Res τ) (l : List α) (s : σ)
    (h : ∀ x ∈ l, ∀ s, g (V s) x = (k s x).map V) : l.foldlM g (V s) = (l.foldlM k s).map V := by
  have := foldlM_equiv id V k g l s h
  rwa [List.map_id] at this

theorem foldl_equiv {α β σ τ : Type} (U : α → β) (V : σ → τ) (k : σ → α → σ) (g : τ → β → τ) :
    ∀ (l : List α) (s : σ), (∀ x ∈ l, ∀ s, g (V s) (U x) = V (k s x)) →
    (l.map U).foldl g (V s) = V (l.foldl k s) := by
  intro l
  induction l with
  | nil => intro s _; rfl
  | cons x l ih =>
    intro s h
    rw [List.map_cons, List.foldl_cons, List.foldl_cons, h x (by simp)]
    exact ih _ (fun y hy => h y (by simp [hy]))

theorem mapM_equiv {α β γ δ : Type} (U : α → β) (V : γ → δ) (k : α → Res γ) (g : β → Res δ) :
    ∀ (l : List α), (∀ x ∈ l, g (U x) = (k x).map V) → (l.map U).mapM g = (l.mapM k).map (List.map V) := by
  intro l
  induction l with
  | nil => intro _; rfl
  | cons x l ih =>
    intro h
    rw [List.map_cons, List.mapM_cons, List.mapM_cons, h x (by simp), bind_map_res, map_bind_res]
    refine bind_congr_res (fun a _ => ?_)
    rw [ih (fun y hy => h y (by simp [hy])), bind_map_res, map_bind_res]
    rfl

theorem atR_mapU {α β : Type} (U : α → β) (l : List α) (i : Nat) : atR (l.map U) i = (atR l i).map U := by
  unfold atR
  rw [List.getElem?_map]
  cases l[i]? <;> rfl

theorem idxR_mapU {α β : Type} (U : α → β) (l : List α) (i : Nat) : idxR (l.map U) i = (idxR l i).map U := by
  unfold idxR
  rw [List.getElem?_map]
  cases l[i]? <;> rfl

/-! ## renamed objects -/

/-- `f` keeps the alphabetical order, and the empty string -/
structure OrderRenaming (f : String → String) : Prop where
  mono : StrictMono f
  empty : f "" = ""

theorem OrderRenaming.inj {f : String → String} (h : OrderRenaming f) : Function.Injective f := h.mono.injective

/-- a distribution of class labels, renamed -/
def DD.rn (f : String → String) (d : DD) : DD := ⟨OMap.rn f d.m, d.sum⟩

variable {f : String → String}

section
variable (hf : OrderRenaming f)
include hf

theorem OMap.find?_rn {V : Type} (m : OMap V) (k : String) : OMap.find? (OMap.rn f m) (f k) = OMap.find? m k := by
  unfold OMap.find? OMap.rn
  induction m with
  | nil => rfl
  | cons p m ih =>
    obtain ⟨a, b⟩ := p
    simp only [List.map_cons, List.lookup_cons, ih]
    by_cases h : k = a
    · simp [h]
    · rw [beq_false_of_ne h, beq_false_of_ne (fun e => h (hf.inj e))]

theorem OMap.insert_rn {V : Type} (k : String) (v : V) : ∀ (m : OMap V),
    OMap.insert (OMap.rn f m) (f k) v = OMap.rn f (OMap.insert m k v)
  | [] => rfl
  | p :: m => by
    have ih := OMap.insert_rn k v m
    unfold OMap.rn at *
    simp only [List.map_cons, OMap.insert, hf.inj.eq_iff, hf.mono.lt_iff_lt, ih]
    split_ifs <;> simp

theorem OMap.emplace_rn {V : Type} (k : String) (v : V) (m : OMap V) :
    OMap.emplace (OMap.rn f m) (f k) v = OMap.rn f (OMap.emplace m k v) := by
  unfold OMap.emplace
  rw [OMap.find?_rn hf]
  cases OMap.find? m k with
  | some _ => rfl
  | none => exact OMap.insert_rn hf k v m

theorem OMap.contains_rn {V : Type} (k : String) (m : OMap V) : OMap.contains (OMap.rn f m) (f k) = OMap.contains m k := by
  unfold OMap.contains; rw [OMap.find?_rn hf]

theorem OMap.erase_rn {V : Type} (k : String) (m : OMap V) :
    OMap.erase (OMap.rn f m) (f k) = OMap.rn f (OMap.erase m k) := by
  unfold OMap.erase OMap.rn
  rw [List.filter_map]
  congr 1
  apply List.filter_congr
  intro p _
  simp only [Function.comp, bne, Bool.not_inj_iff]
  by_cases h : p.1 = k
  · simp [h]
  · rw [beq_false_of_ne h, beq_false_of_ne (fun e => h (hf.inj e))]

theorem Counter.count_rn (k : String) (m : Counter) : Counter.count (OMap.rn f m) (f k) = Counter.count m k := by
  unfold Counter.count; rw [OMap.find?_rn hf]

theorem Counter.put_rn (k : String) (m : Counter) : Counter.put (OMap.rn f m) (f k) = OMap.rn f (Counter.put m k) := by
  unfold Counter.put; rw [Counter.count_rn hf, OMap.insert_rn hf]

theorem Counter.putN_rn (k : String) (n : Nat) (m : Counter) :
    Counter.putN (OMap.rn f m) (f k) n = OMap.rn f (Counter.putN m k n) := by
  unfold Counter.putN; rw [Counter.count_rn hf, OMap.insert_rn hf]

theorem Counter.addAll_rn (m o : Counter) :
    Counter.addAll (OMap.rn f m) (OMap.rn f o) = OMap.rn f (Counter.addAll m o) := by
  unfold Counter.addAll
  exact foldl_equiv (fun p : String × Nat => (f p.1, p.2)) (OMap.rn f) _ _ o m (fun p _ s => Counter.putN_rn hf p.1 p.2 s)

theorem Counter.max_rn (m : Counter) : Counter.max (OMap.rn f m) = f (Counter.max m) := by
  unfold Counter.max
  have := foldl_equiv (fun p : String × Nat => (f p.1, p.2)) (fun p : String × Nat => (f p.1, p.2))
    (fun (b : String × Nat) p => if p.2 > b.2 then p else b) (fun (b : String × Nat) p => if p.2 > b.2 then p else b) m ("", 0)
    (by intro p _ s; simp only; split_ifs <;> rfl)
  rw [show ((f "", 0) : String × Nat) = ("", 0) by rw [hf.empty]] at this
  unfold OMap.rn
  rw [this]

theorem getMaximum_rn (ls : List String) : getMaximum (ls.map f) = f (getMaximum ls) := by
  unfold getMaximum
  rw [← Counter.max_rn hf]
  congr 1
  exact foldl_equiv f (OMap.rn f) _ _ ls [] (fun l _ s => Counter.put_rn hf l s)

theorem DD.addItem_rn (d : DD) (k : String) : (d.rn f).addItem (f k) = (d.addItem k).rn f := by
  unfold DD.addItem DD.rn; simp only [Counter.put_rn hf]

theorem DD.removeItem_rn (d : DD) (k : String) : (d.rn f).removeItem (f k) = (d.removeItem k).rn f := by
  unfold DD.removeItem DD.rn
  simp only [Counter.count_rn hf, OMap.erase_rn hf, OMap.insert_rn hf]
  split_ifs <;> rfl

theorem DD.addDistribution_rn (d e : DD) : (d.rn f).addDistribution (e.rn f) = (d.addDistribution e).rn f := by
  unfold DD.addDistribution DD.rn; simp only [Counter.addAll_rn hf]

theorem DD.removeDistribution_rn (d e : DD) : (d.rn f).removeDistribution (e.rn f) = (d.removeDistribution e).rn f := by
  unfold DD.removeDistribution DD.rn
  simp only
  congr 1
  refine foldl_equiv (fun p : String × Nat => (f p.1, p.2)) (OMap.rn f) _ _ e.m d.m ?_
  intro p _ s
  simp only [Counter.count_rn hf, OMap.erase_rn hf, OMap.insert_rn hf]
  split_ifs <;> rfl

theorem DD.getCount_rn (d : DD) (k : String) : (d.rn f).getCount (f k) = d.getCount k := Counter.count_rn hf k d.m

theorem DD.containsItem_rn (d : DD) (k : String) : (d.rn f).containsItem (f k) = d.containsItem k := OMap.contains_rn hf k d.m

omit hf in
theorem DD.getItems_rn (d : DD) : (d.rn f).getItems = d.getItems.map f := by
  unfold DD.getItems OMap.keys DD.rn OMap.rn; simp

omit hf in
theorem DD.size_rn (d : DD) : (d.rn f).size = d.size := by unfold DD.size DD.rn OMap.rn; simp

theorem DD.getMaxItem_rn (d : DD) : (d.rn f).getMaxItem = f d.getMaxItem := by
  unfold DD.getMaxItem
  have := foldl_equiv (fun p : String × Nat => (f p.1, p.2)) (fun p : String × Int => (f p.1, p.2))
    (fun (b : String × Int) p => if (p.2 : Int) > b.2 then (p.1, (p.2 : Int)) else b)
    (fun (b : String × Int) p => if (p.2 : Int) > b.2 then (p.1, (p.2 : Int)) else b) d.m ("", -1)
    (by intro p _ s; simp only; split_ifs <;> rfl)
  rw [show ((f "", -1) : String × Int) = ("", -1) by rw [hf.empty]] at this
  unfold DD.rn OMap.rn
  rw [this]

theorem DD.getMaxItemOf_rn (d : DD) (l : List String) : (d.rn f).getMaxItemOf (l.map f) = f (d.getMaxItemOf l) := by
  unfold DD.getMaxItemOf
  have := foldl_equiv f (fun p : String × Int => (f p.1, p.2))
    (fun (b : String × Int) k => if (d.getCount k : Int) > b.2 then (k, (d.getCount k : Int)) else b)
    (fun (b : String × Int) k => if ((d.rn f).getCount k : Int) > b.2 then (k, ((d.rn f).getCount k : Int)) else b) l ("", -1)
    (by intro p _ s; simp only [DD.getCount_rn hf]; split_ifs <;> rfl)
  rw [show ((f "", -1) : String × Int) = ("", -1) by rw [hf.empty]] at this
  rw [this]

theorem DD.getProbability_rn (d : DD) (k : String) : ((d.rn f).getProbability (f k) : F) = d.getProbability k := by
  unfold DD.getProbability
  rw [show (d.rn f).m = OMap.rn f d.m from rfl, OMap.find?_rn hf]
  rfl

theorem DD.getProbabilityDistribution_rn (d : DD) :
    ((d.rn f).getProbabilityDistribution : OMap F) = OMap.rn f d.getProbabilityDistribution := by
  unfold DD.getProbabilityDistribution
  rw [show (d.rn f).m = d.m.map (fun p => (f p.1, p.2)) from rfl]
  unfold OMap.rn
  rw [List.map_map, List.map_map]
  apply List.map_congr_left
  intro p _
  simp only [Function.comp, DD.getProbability_rn hf]

omit hf in
theorem DD.entropy_rn (d : DD) : ((d.rn f).entropy : F) = d.entropy := by
  unfold DD.entropy
  rw [show (d.rn f).m = d.m.map (fun p => (f p.1, p.2)) from rfl, List.foldl_map]
  rfl

omit hf in
theorem DD.getSum_rn (d : DD) : (d.rn f).getSum = d.getSum := rfl

omit hf in
theorem DD.empty_rn : DD.empty.rn f = DD.empty := rfl

theorem DD.foldl_rn (ls : List String) (d : DD) :
    (ls.map f).foldl (fun d l => d.addItem l) (d.rn f) = (ls.foldl (fun d l => d.addItem l) d).rn f :=
  foldl_equiv f (DD.rn f) _ _ ls d (fun l _ s => DD.addItem_rn hf s l)

/-! ## instances and lists -/

omit hf in
@[simp] theorem Inst.rn_attrs (x : Inst F) : (x.rn f).attrs = x.attrs := rfl
omit hf in
@[simp] theorem Inst.rn_label (x : Inst F) : (x.rn f).label = f x.label := rfl
omit hf in
@[simp] theorem Inst.rn_isComposite (x : Inst F) : (x.rn f).isComposite = x.isComposite := by
  unfold Inst.isComposite Inst.rn; cases x.possible <;> rfl
omit hf in
@[simp] theorem Inst.rn_possibleLabels (x : Inst F) : (x.rn f).possibleLabels = x.possibleLabels.map f := by
  unfold Inst.possibleLabels Inst.rn; cases x.possible <;> rfl
omit hf in
@[simp] theorem Inst.rn_getAttribute (x : Inst F) (i : Nat) : (x.rn f).getAttribute i = x.getAttribute i := rfl
omit hf in
@[simp] theorem Inst.rn_contAt (x : Inst F) (i : Nat) : (x.rn f).contAt i = x.contAt i := rfl
omit hf in
@[simp] theorem Inst.rn_discAt (x : Inst F) (i : Nat) : (x.rn f).discAt i = x.discAt i := rfl
omit hf in
@[simp] theorem Inst.rn_indexAt (x : Inst F) (i : Nat) : (x.rn f).indexAt i = x.indexAt i := rfl
omit hf in
@[simp] theorem Inst.rn_toVector (x : Inst F) : (x.rn f).toVector = x.toVector := rfl
omit hf in
@[simp] theorem Inst.rn_attributeSize (x : Inst F) : (x.rn f).attributeSize = x.attributeSize := rfl
omit hf in
@[simp] theorem Inst.rn_continuousAttributeSize (x : Inst F) :
    (x.rn f).continuousAttributeSize = x.continuousAttributeSize := rfl
omit hf in
@[simp] theorem Inst.rn_continuousAttributes (x : Inst F) : (x.rn f).continuousAttributes = x.continuousAttributes := rfl

theorem mem_map_iff (k : String) (l : List String) : f k ∈ l.map f ↔ k ∈ l := by
  simp [hf.inj.eq_iff]

omit hf in
theorem rn_getClassLabels (l : IList F) : IList.getClassLabels (l.map (Inst.rn f)) = l.getClassLabels.map f := by
  rw [getClassLabels_eq, getClassLabels_eq, List.map_map, List.map_map]; rfl

theorem rn_distinct (l : IList F) :
    IList.getDistinctClassLabels (l.map (Inst.rn f)) = l.getDistinctClassLabels.map f := by
  unfold IList.getDistinctClassLabels
  refine foldl_equiv (Inst.rn f) (List.map f) _ _ l [] ?_
  intro x _ s
  simp only [Inst.rn_label, mem_map_iff hf]
  split_ifs <;> simp

theorem rn_classDist (l : IList F) : IList.classDistribution (l.map (Inst.rn f)) = l.classDistribution.rn f := by
  unfold IList.classDistribution
  exact foldl_equiv (Inst.rn f) (DD.rn f) _ _ l DD.empty (fun x _ s => DD.addItem_rn hf s x.label)

omit hf in
theorem rn_get (l : IList F) (i : Nat) : IList.get (l.map (Inst.rn f)) i = (l.get i).map (Inst.rn f) := atR_mapU _ l i

omit hf in
theorem rn_sort (l : IList F) (i : Nat) :
    IList.sortByAttribute (l.map (Inst.rn f)) i = (l.sortByAttribute i).map (List.map (Inst.rn f)) := by
  unfold IList.sortByAttribute
  rw [mapM_equiv (Inst.rn f) (fun p : F × Inst F => (p.1, p.2.rn f)) (fun x => do
      let v ← x.contAt i
      pure (v, x)), bind_map_res, map_bind_res]
  · refine bind_congr_res (fun k _ => ?_)
    rw [stableSort_map (fun p : F × Inst F => (p.1, p.2.rn f)) (fun p q => p.1 <. q.1) (fun p q => p.1 <. q.1)
      k (fun _ _ _ _ => rfl), List.map_map]
    simp only [map_pure_res, List.map_map]; rfl
  · intro x _
    rw [map_bind_res]; rfl

omit hf in
theorem rn_valueList (l : IList F) (i : Nat) :
    IList.getAttributeValueList (l.map (Inst.rn f)) i = l.getAttributeValueList i := by
  unfold IList.getAttributeValueList
  rw [List.foldlM_map]; rfl

theorem rn_attributeClassDist (l : IList F) (i : Nat) :
    IList.attributeClassDistribution (l.map (Inst.rn f)) i = (l.attributeClassDistribution i).map (List.map (DD.rn f)) := by
  unfold IList.attributeClassDistribution
  rw [rn_valueList, map_bind_res]
  refine bind_congr_res (fun vs _ => ?_)
  rw [← foldlM_equiv (Inst.rn f) (List.map (DD.rn f)) _ (fun ds x => do
    let v ← x.discAt i
    let k := vs.idxOf v
    let d ← idxR ds k
    pure (ds.set k (d.addItem x.label))) l (List.replicate vs.length DD.empty)]
  · rw [List.map_replicate]; rfl
  · intro x _ s
    simp only [Inst.rn_discAt, map_bind_res, idxR_mapU, bind_map_res, map_pure_res, Inst.rn_label, DD.addItem_rn hf,
      List.map_set]

theorem rn_indexedDist (l : IList F) (i : Nat) (k : Int) :
    IList.discreteIndexedAttributeClassDistribution (l.map (Inst.rn f)) i k =
      (l.discreteIndexedAttributeClassDistribution i k).map (DD.rn f) := by
  unfold IList.discreteIndexedAttributeClassDistribution
  rw [show DD.empty = DD.empty.rn f from rfl]
  rw [foldlM_equiv (Inst.rn f) (DD.rn f) (fun d x => do
    let v ← x.indexAt i
    pure (if v = k then d.addItem x.label else d))]
  · rfl
  · intro x _ s
    simp only [Inst.rn_indexAt, map_bind_res, map_pure_res, Inst.rn_label, DD.addItem_rn hf, apply_ite (DD.rn f)]

/-! ## partitions -/

/-- renamed parts -/
def Parts.rn (f : String → String) (ps : Parts F) : Parts F := ps.map (List.map (Inst.rn f))

omit hf in
theorem rn_addTo (ps : Parts F) (k : Nat) (x : Inst F) :
    Parts.addTo (ps.rn f) k (x.rn f) = (Parts.addTo ps k x).map (Parts.rn f) := by
  unfold Parts.addTo Parts.rn
  rw [atR_mapU, bind_map_res, map_bind_res]
  refine bind_congr_res (fun p _ => ?_)
  rw [map_pure_res, List.map_set]
  simp [IList.add]

theorem idxOf_rn (v : String) (l : List String) : (l.map f).idxOf (f v) = l.idxOf v := idxOf_map_inj hf.inj v l

theorem rn_byClass (l : IList F) : Parts.byClass (l.map (Inst.rn f)) = (Parts.byClass l).map (Parts.rn f) := by
  unfold Parts.byClass
  simp only
  rw [rn_distinct hf]
  rw [← foldlM_equiv (Inst.rn f) (Parts.rn f) _
    (fun ps x => Parts.addTo ps ((l.getDistinctClassLabels.map f).idxOf x.label) x)]
  · unfold Parts.rn; rw [List.map_map, List.map_map]; rfl
  · intro x _ s
    rw [Inst.rn_label, idxOf_rn hf, rn_addTo]

omit hf in
theorem rn_byDiscrete (l : IList F) (i : Nat) :
    Parts.byDiscrete (l.map (Inst.rn f)) i = (Parts.byDiscrete l i).map (Parts.rn f) := by
  unfold Parts.byDiscrete
  rw [rn_valueList, map_bind_res]
  refine bind_congr_res (fun vs _ => ?_)
  rw [← foldlM_equiv (Inst.rn f) (Parts.rn f) _ (fun ps x => do
    let v ← x.discAt i
    Parts.addTo ps (vs.idxOf v) x)]
  · unfold Parts.rn; rw [List.map_map]; rfl
  · intro x _ s
    rw [map_bind_res, Inst.rn_discAt]
    simp only [rn_addTo]

omit hf in
theorem rn_byIndexed (l : IList F) (i : Nat) (k : Int) :
    Parts.byIndexed (l.map (Inst.rn f)) i k = (Parts.byIndexed l i k).map (Parts.rn f) := by
  unfold Parts.byIndexed
  rw [← foldlM_equiv (Inst.rn f) (Parts.rn f) _ (fun ps x => do
    let v ← x.indexAt i
    if v = k then Parts.addTo ps 0 x else Parts.addTo ps 1 x)]
  · rfl
  · intro x _ s
    rw [map_bind_res, Inst.rn_indexAt]
    simp only [rn_addTo, map_ite_res]

omit hf in
theorem rn_byThreshold (l : IList F) (i : Nat) (v : F) :
    Parts.byThreshold (l.map (Inst.rn f)) i v = (Parts.byThreshold l i v).map (Parts.rn f) := by
  unfold Parts.byThreshold
  rw [← foldlM_equiv (Inst.rn f) (Parts.rn f) _ (fun ps x => do
    let w ← x.contAt i
    if w <=. v then Parts.addTo ps 0 x else Parts.addTo ps 1 x)]
  · rfl
  · intro x _ s
    rw [map_bind_res, Inst.rn_contAt]
    simp only [rn_addTo, map_ite_res]

theorem rn_byRatioStratified (l : IList F) (r : F) (arr : List Nat) :
    Parts.byRatioStratified (l.map (Inst.rn f)) r arr = (Parts.byRatioStratified l r arr).map (Parts.rn f) := by
  unfold Parts.byRatioStratified
  simp only [rn_classDist hf, List.length_map]
  rw [map_bind_res]
  rw [show (([], [[], []]) : Counter × Parts F) = (fun s : Counter × Parts F => (OMap.rn f s.1, s.2.rn f)) ([], [[], []]) from rfl]
  rw [foldlM_equiv' (fun s : Counter × Parts F => (OMap.rn f s.1, s.2.rn f)) (fun (st : Counter × Parts F) i => do
    let r' ← atR arr i
    let x ← l.get r'
    let ps ←
      if Dbl.ofNat (Counter.count st.1 x.label) <.
          (Dbl.ofNat l.length *. r *. (l.classDistribution.getProbability x.label : F))
      then Parts.addTo st.2 0 x
      else Parts.addTo st.2 1 x
    pure (Counter.put st.1 x.label, ps)), bind_map_res]
  · rfl
  · intro i _ s
    simp only [map_bind_res]
    refine bind_congr_res (fun a _ => ?_)
    simp only [rn_get, bind_map_res]
    refine bind_congr_res (fun x _ => ?_)
    simp only [Inst.rn_label, Counter.count_rn hf, DD.getProbability_rn hf, Counter.put_rn hf, rn_addTo]
    rw [map_ite_res]
    simp only [bind_map_res, map_bind_res]
    rfl

omit hf in
theorem rn_shuffle (l : IList F) (σ : List Nat) :
    IList.shuffle (l.map (Inst.rn f)) σ = (l.shuffle σ).map (Inst.rn f) := by
  unfold IList.shuffle
  rw [List.map_filterMap]
  simp only [List.getElem?_map]

omit hf in
theorem rn_bootstrap (l : IList F) (σ : List Nat) :
    IList.bootstrap (l.map (Inst.rn f)) σ = (l.bootstrap σ).map (Inst.rn f) := rn_shuffle l σ

end
end Verif
