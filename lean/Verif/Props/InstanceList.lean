import Verif.Lemmas.Basic
import Verif.Model.DblXR

/-! # Properties C07–C15, C44: instance lists, counting and sorting -/

set_option linter.unusedSectionVars false

namespace Verif
open Dbl
variable {F : Type} [Dbl F]

/-! ## helper facts -/

theorem foldl_map' {α β γ : Type} (f : γ → β → γ) (g : α → β) (l : List α) (s : γ) :
    l.foldl (fun s x => f s (g x)) s = (l.map g).foldl f s := by
  rw [List.foldl_map]

theorem distinct_eq (l : IList F) :
    l.getDistinctClassLabels = (l.map Inst.label).foldl pushNew [] := by
  unfold IList.getDistinctClassLabels pushNew
  rw [List.foldl_map]

theorem union_eq (l : IList F) :
    l.getUnionOfPossibleClassLabels = ((l.map Inst.possibleLabels).flatten).foldl pushNew [] := by
  unfold IList.getUnionOfPossibleClassLabels
  have : ∀ (l : List (Inst F)) (r : List String),
      l.foldl (fun r x => x.possibleLabels.foldl (fun r p => if p ∈ r then r else r ++ [p]) r) r =
      ((l.map Inst.possibleLabels).flatten).foldl pushNew r := by
    intro l
    induction l with
    | nil => intro r; rfl
    | cons x l ih =>
      intro r
      rw [List.foldl_cons, ih]
      simp only [List.map_cons, List.flatten_cons, List.foldl_append]
      rfl
  exact this l []

theorem valueList_ok {l : IList F} {i : Nat} {v : Inst F → String}
    (h : ∀ x ∈ l, DiscAt x i (v x)) :
    l.getAttributeValueList i = .ok ((l.map v).foldl pushNew []) := by
  unfold IList.getAttributeValueList
  rw [foldlM_ok (g := fun r x => pushNew r (v x))]
  · rw [List.foldl_map]
  · intro x hx s
    rw [discAt_ok (h x hx)]; rfl

theorem classDistribution_eq (l : IList F) :
    l.classDistribution = DD.ofList (l.map Inst.label) := by
  unfold IList.classDistribution DD.ofList
  rw [List.foldl_map]

theorem getMaximum_eq (labels : List String) :
    getMaximum labels = Counter.max (Counter.ofList labels) := rfl

/-! ## C44: majority label -/

/-- **C44.** `getMaximum` of a non-empty list is its majority label: maximal multiplicity,
smallest on ties. -/
theorem C44_majority (labels : List String) (h : labels ≠ []) :
    IsMajority labels (getMaximum labels) := by
  rw [getMaximum_eq]
  obtain ⟨h1, h2, h3⟩ := Counter.max_spec (Counter.wf_ofList labels) (Counter.ofList_ne_nil h)
  simp only [Counter.count_ofList] at h1 h2 h3
  refine ⟨List.count_pos_iff.1 h1, h2, ?_⟩
  intro s hs he
  exact h3 s (List.count_pos_iff.2 hs) he

/-- **C44.** The empty list gives the empty string. -/
theorem C44_empty : getMaximum [] = "" := rfl

/-- the majority label is unique, so C44 determines the result -/
theorem IsMajority.unique {l : List String} {r s : String} (hr : IsMajority l r)
    (hs : IsMajority l s) : r = s := by
  have h1 : l.count r = l.count s := le_antisymm (hs.max r) (hr.max s)
  exact le_antisymm (hr.tie s hs.mem h1.symm) (hs.tie r hr.mem h1)

example : getMaximum ["b", "c", "a", "c", "b"] = "b" := by decide +kernel
example : IsMajority ["b", "c", "a", "c", "b"] "b" := C44_majority ["b", "c", "a", "c", "b"] (by simp)

/-! ## C07, C08, C09 -/

/-- **C07.** Distinct class labels: each label once, in order of first occurrence. -/
theorem C07_distinct_class_labels (l : IList F) :
    IsFirstOccurrences (l.map Inst.label) l.getDistinctClassLabels := by
  rw [distinct_eq]; exact dedup_first _

example : IList.getDistinctClassLabels ([⟨"b", [], none⟩, ⟨"a", [], none⟩, ⟨"b", [], none⟩] :
    IList XR) = ["b", "a"] := by decide

/-- **C08.** Union of the possible labels: each possible label once, in order of first
occurrence. -/
theorem C08_union_of_possible (l : IList F) :
    IsFirstOccurrences ((l.map Inst.possibleLabels).flatten) l.getUnionOfPossibleClassLabels := by
  rw [union_eq]; exact dedup_first _

/-- **C08.** Without composite instances the union is the list of distinct labels. -/
theorem C08_plain (l : IList F) (h : ∀ x ∈ l, x.isComposite = false) :
    l.getUnionOfPossibleClassLabels = l.getDistinctClassLabels := by
  rw [union_eq, distinct_eq]
  congr 1
  induction l with
  | nil => rfl
  | cons x l ih =>
    have hx : x.possibleLabels = [x.label] := by
      have := h x (by simp)
      unfold Inst.isComposite at this
      unfold Inst.possibleLabels
      cases hp : x.possible with
      | none => rfl
      | some ls => rw [hp] at this; cases this
    have := ih (fun y hy => h y (by simp [hy]))
    simp [hx, this]

example : IList.getUnionOfPossibleClassLabels ([⟨"b", [], some ["c", "b"]⟩, ⟨"a", [], none⟩,
    ⟨"b", [], none⟩] : IList XR) = ["c", "b", "a"] := by decide

/-- **C09.** Value list of a discrete-valued attribute. -/
theorem C09_attribute_values (l : IList F) (i : Nat) (v : Inst F → String)
    (h : ∀ x ∈ l, DiscAt x i (v x)) :
    ∃ vs, l.getAttributeValueList i = .ok vs ∧ IsFirstOccurrences (l.map v) vs :=
  ⟨_, valueList_ok h, dedup_first _⟩

example : IList.getAttributeValueList ([⟨"b", [.discrete "x"], none⟩, ⟨"a", [.binary "y"], none⟩,
    ⟨"b", [.indexed "x" 0 2], none⟩] : IList XR) 0 = .ok ["x", "y"] := by decide

/-! ## C10, C11, C12 -/

/-- **C10.** The class distribution counts every label exactly. -/
theorem C10_class_distribution (l : IList F) :
    Counts l.classDistribution (l.map Inst.label) := by
  rw [classDistribution_eq]; exact DD.counts_ofList _

/-- **C10.** Its number of entries is the number of distinct class labels. -/
theorem C10_number_of_classes (l : IList F) :
    l.classDistribution.size = l.getDistinctClassLabels.length := by
  have hc := C10_class_distribution l
  have hd := C07_distinct_class_labels l
  have hp : (l.classDistribution.getItems).Perm l.getDistinctClassLabels := by
    rw [List.perm_ext_iff_of_nodup (hc.sorted.imp (fun h => ne_of_lt h)) hd.nodup]
    intro a; rw [hc.mem_items, hd.mem_iff]
  have := hp.length_eq
  simpa [DD.getItems, OMap.keys, DD.size] using this

example : (IList.classDistribution ([⟨"b", [], none⟩, ⟨"a", [], none⟩, ⟨"b", [], none⟩] :
    IList XR)).getCount "b" = 2 := by decide

/-- loop "add to the table of the value": after it, table `k` is the distribution of the labels
of the instances whose value is the `k`-th of `vs` -/
theorem table_loop {vs : List String} (hnd : vs.Nodup) (v : Inst F → String) {i : Nat}
    (l : IList F) : (∀ x ∈ l, DiscAt x i (v x)) → (∀ x ∈ l, v x ∈ vs) → ∀ (l0 : IList F),
    l.foldlM (fun (ds : List DD) x => do
      let w ← x.discAt i
      let k := vs.idxOf w
      let d ← idxR ds k
      (pure (ds.set k (d.addItem x.label)) : Res (List DD)))
      (vs.map (fun a => DD.ofList ((l0.filter (fun x => v x == a)).map Inst.label))) =
    .ok (vs.map (fun a => DD.ofList (((l0 ++ l).filter (fun x => v x == a)).map Inst.label))) := by
  induction l with
  | nil => intro _ _ l0; simp
  | cons x l ih =>
    intro h hv l0
    have hx := hv x (by simp)
    have hk : vs.idxOf (v x) < vs.length := List.idxOf_lt_length_of_mem hx
    rw [List.foldlM_cons, discAt_ok (h x (by simp))]
    simp only [res_bind_ok, res_pure]
    rw [idxR_ok_of_lt (by simpa using hk)]
    simp only [res_bind_ok]
    have hset : (vs.map (fun a => DD.ofList ((l0.filter (fun x => v x == a)).map Inst.label))).set
        (vs.idxOf (v x))
        ((vs.map (fun a => DD.ofList ((l0.filter (fun x => v x == a)).map Inst.label)))[vs.idxOf (v x)]'
          (by simpa using hk) |>.addItem x.label) =
        vs.map (fun a => DD.ofList (((l0 ++ [x]).filter (fun x => v x == a)).map Inst.label)) := by
      apply List.ext_getElem
      · simp
      · intro j h1 h2
        simp only [List.length_set, List.length_map] at h1 h2
        rw [List.getElem_set]
        by_cases hj : vs.idxOf (v x) = j
        · rw [if_pos hj]
          simp only [List.getElem_map]
          have e1 : vs[vs.idxOf (v x)] = v x := List.getElem_idxOf hk
          have e2 : vs[j] = v x := by subst hj; exact e1
          rw [e1, e2]
          simp [DD.ofList]
        · rw [if_neg hj]
          simp only [List.getElem_map]
          have hne : ¬ v x = vs[j] := by
            intro he
            apply hj
            rw [he, hnd.idxOf_getElem]
          simp [List.filter_append, hne]
    have := ih (fun y hy => h y (by simp [hy])) (fun y hy => hv y (by simp [hy])) (l0 ++ [x])
    simp only [res_pure] at this
    rw [hset, this]
    simp

/-- **C11.** Contingency table: one distribution per distinct value in first-occurrence order;
the one of value `a` counts the labels of exactly the instances with value `a`. -/
theorem C11_contingency (l : IList F) (i : Nat) (v : Inst F → String)
    (h : ∀ x ∈ l, DiscAt x i (v x)) :
    ∃ vs ds, l.getAttributeValueList i = .ok vs ∧ IsFirstOccurrences (l.map v) vs ∧
      l.attributeClassDistribution i = .ok ds ∧ ds.length = vs.length ∧
      ∀ k (hk : k < vs.length) (hk' : k < ds.length),
        Counts ds[k] ((l.filter (fun x => v x == vs[k])).map Inst.label) := by
  have hfo := dedup_first (l.map v)
  refine ⟨_, ((l.map v).foldl pushNew []).map
      (fun a => DD.ofList ((l.filter (fun x => v x == a)).map Inst.label)),
    valueList_ok h, hfo, ?_, ?_, ?_⟩
  · unfold IList.attributeClassDistribution
    rw [valueList_ok h]
    simp only [res_bind_ok]
    have := table_loop (i := i) hfo.nodup v l h (fun x hx => by
      rw [hfo.mem_iff]; exact List.mem_map_of_mem hx) []
    simp only [List.filter_nil, List.map_nil, List.nil_append, List.map_const'] at this
    exact this
  · simp
  · intro k hk hk'
    rw [List.getElem_map]
    exact DD.counts_ofList _

/-- **C11.** Adding the tables over all values gives the class distribution. -/
theorem C11_margin (l : IList F) (i : Nat) (v : Inst F → String)
    (h : ∀ x ∈ l, DiscAt x i (v x)) (ds : List DD) (hds : l.attributeClassDistribution i = .ok ds)
    (c : String) :
    (ds.map (fun d => d.getCount c)).sum = l.classDistribution.getCount c := by
  obtain ⟨vs, ds', _, hfo, h2, hlen, hcnt⟩ := C11_contingency l i v h
  rw [hds] at h2
  cases h2
  have hmap : ds.map (fun d => d.getCount c) =
      vs.map (fun a => ((l.filter (fun x => v x == a)).map Inst.label).count c) := by
    apply List.ext_getElem
    · simp [hlen]
    · intro k h1 h2
      simp only [List.getElem_map]
      exact (hcnt k (by simpa using h2) (by simpa using h1)).count c
  rw [hmap, (C10_class_distribution l).count]
  have key : ∀ (l : IList F), (∀ x ∈ l, v x ∈ vs) →
      (vs.map (fun a => ((l.filter (fun x => v x == a)).map Inst.label).count c)).sum =
      (l.map Inst.label).count c := by
    intro l
    induction l with
    | nil => intro _; simp
    | cons x l ih =>
      intro hm
      have hx := hm x (by simp)
      have := ih (fun y hy => hm y (by simp [hy]))
      rw [List.map_cons, List.count_cons, ← this]
      have hsplit : ∀ (ws : List String), ws.Nodup → 
          (ws.map (fun a => (((x :: l).filter (fun x => v x == a)).map Inst.label).count c)).sum =
          (ws.map (fun a => ((l.filter (fun x => v x == a)).map Inst.label).count c)).sum +
            if v x ∈ ws ∧ x.label = c then 1 else 0 := by
        intro ws
        induction ws with
        | nil => simp
        | cons a ws ihw =>
          intro hnd
          rw [List.nodup_cons] at hnd
          have := ihw hnd.2
          simp only [List.map_cons, List.sum_cons, this]
          by_cases ha : v x = a
          · subst ha
            simp only [List.filter_cons, beq_self_eq_true, if_true, List.map_cons, List.count_cons,
              List.mem_cons, true_or, true_and, hnd.1, false_and, if_false]
            by_cases hc : x.label = c
            · simp [hc]; omega
            · simp [hc]
          · have hb : (v x == a) = false := by simpa using ha
            simp only [List.filter_cons, hb, List.mem_cons, ha, false_or]
            simp only [Bool.false_eq_true, if_false]
            omega
      rw [hsplit vs hfo.nodup]
      simp [hx]
  apply key
  intro x hx
  rw [hfo.mem_iff]; exact List.mem_map_of_mem hx

example : IList.attributeClassDistribution ([⟨"b", [.discrete "x"], none⟩,
    ⟨"a", [.discrete "y"], none⟩, ⟨"b", [.discrete "x"], none⟩, ⟨"a", [.discrete "x"], none⟩] : IList XR) 0 =
    .ok [⟨[("a", 1), ("b", 2)], 3⟩, ⟨[("a", 1)], 1⟩] := by decide +kernel

/-- **C12.** Distribution of the labels of the instances with index `k`. -/
theorem C12_indexed_distribution (l : IList F) (i : Nat) (k : Int) (v : Inst F → Int)
    (h : ∀ x ∈ l, IndexAt x i (v x)) :
    ∃ d, l.discreteIndexedAttributeClassDistribution i k = .ok d ∧
      Counts d ((l.filter (fun x => v x == k)).map Inst.label) := by
  refine ⟨DD.ofList ((l.filter (fun x => v x == k)).map Inst.label), ?_, DD.counts_ofList _⟩
  unfold IList.discreteIndexedAttributeClassDistribution
  rw [foldlM_ok (g := fun d x => if v x = k then d.addItem x.label else d)]
  · congr 1
    unfold DD.ofList
    rw [List.foldl_map, List.foldl_filter]
    congr 1
    funext d x
    by_cases hx : v x = k <;> simp [hx]
  · intro x hx s
    rw [indexAt_ok (h x hx)]; rfl

example : IList.discreteIndexedAttributeClassDistribution ([⟨"b", [.indexed "x" 0 2], none⟩,
    ⟨"a", [.indexed "y" 1 2], none⟩, ⟨"b", [.indexed "x" 0 2], none⟩] : IList XR) 0 0 =
    .ok ⟨[("b", 2)], 2⟩ := by decide +kernel

/-! ## C13, C14, C15 -/

/-- **C13.** `sort(i)` is a stable ascending sort by the values of attribute `i`, in every
arithmetic whose comparisons obey the IEEE order laws, for columns without NaN. -/
theorem C13_sort_by_attribute [LawfulOrd F] (l : IList F) (i : Nat) (v : Inst F → F)
    (h : ∀ x ∈ l, ContAt x i (v x)) (hord : ∀ x ∈ l, Dbl.Ord (v x)) :
    ∃ s, l.sortByAttribute i = .ok s ∧
      IsStableSort (fun a b => (a <=. b) = true) v l s := by
  have hm : l.mapM (fun x => do
      let v ← x.contAt i
      (pure (v, x) : Res (F × Inst F))) = .ok (l.map (fun x => (v x, x))) :=
    mapM_ok (fun x hx => by rw [contAt_ok (h x hx)]; rfl)
  refine ⟨_, by unfold IList.sortByAttribute; rw [hm]; rfl, ?_, ?_, ?_⟩
  · have := (stableSort_perm (fun (p q : F × Inst F) => p.1 <. q.1)
      (l.map (fun x => (v x, x)))).map Prod.snd
    simpa [List.map_map, Function.comp_def] using this
  · have hsw : StrictWeakOn (fun a : F × Inst F => Dbl.Ord a.1) (fun p q => p.1 <. q.1) :=
      strictWeak_key Prod.fst
    have hs := stableSort_sorted hsw (l := l.map (fun x => (v x, x))) (by
      intro y hy; obtain ⟨x, hx, rfl⟩ := List.mem_map.1 hy; exact hord x hx)
    rw [List.pairwise_map]
    refine hs.imp_of_mem ?_
    intro a b ha hb hab
    have ha' := (stableSort_perm _ _).mem_iff.1 ha
    have hb' := (stableSort_perm _ _).mem_iff.1 hb
    obtain ⟨x, hx, rfl⟩ := List.mem_map.1 ha'
    obtain ⟨y, hy, rfl⟩ := List.mem_map.1 hb'
    exact (not_lt_iff_le (hord x hx) (hord y hy)).1 hab
  · intro p hp
    have hst := stableSort_stable (fun (p q : F × Inst F) => p.1 <. q.1)
      (l.map (fun x => (v x, x))) (fun q => p q.2) (by
        intro a ha b hb hpa hpb
        obtain ⟨x, hx, rfl⟩ := List.mem_map.1 ha
        obtain ⟨y, hy, rfl⟩ := List.mem_map.1 hb
        exact (not_lt_iff_le (hord x hx) (hord y hy)).2 (hp x hx y hy hpa hpb))
    have := congrArg (List.map Prod.snd) hst
    have e1 : ∀ (L : List (F × Inst F)),
        (L.filter (fun q => p q.2)).map Prod.snd = (L.map Prod.snd).filter p := by
      intro L; rw [List.filter_map]; rfl
    rw [e1, e1] at this
    simpa [List.map_map, Function.comp_def] using this

/-- concrete column with a tie, an infinity and a negative value -/
def exSortList : IList XR :=
  [⟨"a", [.continuous .pinf], none⟩, ⟨"b", [.continuous (.fin 1)], none⟩,
   ⟨"c", [.continuous (.fin (-3))], none⟩, ⟨"d", [.continuous (.fin 1)], none⟩]

example : (exSortList.sortByAttribute 0).map (List.map Inst.label) =
    .ok ["c", "b", "d", "a"] := by decide +kernel
example : ∀ x ∈ exSortList, ∃ v, ContAt x 0 v ∧ Dbl.Ord v := by
  intro x hx
  simp only [exSortList, List.mem_cons, List.not_mem_nil, or_false] at hx
  rcases hx with rfl | rfl | rfl | rfl <;> exact ⟨_, rfl, by simp [XR.ord_iff]⟩

theorem label_strictWeak :
    StrictWeakOn (fun _ : Inst F => True) (fun x y => decide (x.label < y.label)) := by
  constructor
  · intro a b _ _ h
    rw [decide_eq_true_eq] at h
    rw [decide_eq_false_iff_not]; exact not_lt.2 (le_of_lt h)
  · intro a b c _ _ _ h1 h2
    simp only [decide_eq_false_iff_not, not_lt] at h1 h2 ⊢
    exact le_trans h1 h2

/-- **C14.** `sort()` is a stable ascending sort by class label. -/
theorem C14_sort_by_class (l : IList F) :
    IsStableSort (· ≤ ·) Inst.label l l.sortByClass := by
  refine ⟨stableSort_perm _ _, ?_, ?_⟩
  · refine (stableSort_sorted label_strictWeak (l := l) (by simp)).imp ?_
    intro a b h; exact not_lt.1 (decide_eq_false_iff_not.1 h)
  · intro p hp
    apply stableSort_stable
    intro a ha b hb h1 h2
    rw [decide_eq_false_iff_not]; exact not_lt.2 (hp a ha b hb h1 h2)

/-- a list sorted by label is the concatenation of its classes -/
theorem sorted_blocks (cs : List String) (hcs : cs.Pairwise (· < ·)) :
    ∀ (s : IList F), s.Pairwise (fun a b => a.label ≤ b.label) → (∀ x ∈ s, x.label ∈ cs) →
    s = (cs.map (fun c => s.filter (fun x => x.label == c))).flatten := by
  induction cs with
  | nil =>
    intro s _ h
    cases s with
    | nil => rfl
    | cons x s => exact absurd (h x (by simp)) (by simp)
  | cons c cs ih =>
    intro s hs hm
    rw [List.pairwise_cons] at hcs
    -- everything labelled `c` comes first
    have hsplit : s = s.filter (fun x => x.label == c) ++ s.filter (fun x => !(x.label == c)) := by
      clear ih
      induction s with
      | nil => rfl
      | cons x s ihs =>
        rw [List.pairwise_cons] at hs
        have hrec := ihs hs.2 (fun y hy => hm y (by simp [hy]))
        by_cases hx : x.label = c
        · have hb : (x.label == c) = true := by simpa using hx
          rw [List.filter_cons_of_pos (p := fun x : Inst F => x.label == c) hb,
            List.filter_cons_of_neg (p := fun x : Inst F => !(x.label == c)) (by simp [hb])]
          rw [List.cons_append, ← hrec]
        · have hb : (x.label == c) = false := by simpa using hx
          have hxc : c < x.label := by
            rcases List.mem_cons.1 (hm x (by simp)) with he | he
            · exact absurd he hx
            · exact hcs.1 _ he
          have hnil : s.filter (fun x => x.label == c) = [] := by
            rw [List.filter_eq_nil_iff]
            intro y hy hyc
            have h1 := hs.1 y hy
            have h2 : y.label = c := by simpa using hyc
            rw [h2] at h1
            exact absurd (lt_of_lt_of_le hxc h1) (lt_irrefl _)
          rw [List.filter_cons_of_neg (p := fun x : Inst F => x.label == c) (by simp [hb]),
            List.filter_cons_of_pos (p := fun x : Inst F => !(x.label == c)) (by simp [hb]), hnil]
          rw [hnil, List.nil_append] at hrec
          rw [List.nil_append, ← hrec]
    have hrest := ih hcs.2 (s.filter (fun x => !(x.label == c)))
      (hs.sublist List.filter_sublist) (by
        intro x hx
        rw [List.mem_filter] at hx
        rcases List.mem_cons.1 (hm x hx.1) with he | he
        · simp [he] at hx
        · exact he)
    have heq : cs.map (fun d => (s.filter (fun x => !(x.label == c))).filter (fun x => x.label == d)) =
        cs.map (fun d => s.filter (fun x => x.label == d)) := by
      apply List.map_congr_left
      intro d hd
      rw [List.filter_filter]
      apply List.filter_congr
      intro x _
      have hne : d ≠ c := ne_of_gt (hcs.1 d hd)
      by_cases hxd : x.label = d
      · simp [hxd, hne]
      · simp [hxd]
    rw [heq] at hrest
    rw [List.map_cons, List.flatten_cons, ← hrest]
    exact hsplit

/-- **C14.** After `sort()` the list is the concatenation, in label order, of one block per
class; the block of class `c` holds the instances of `c` in their original order, and its
size is the class count. -/
theorem C14_blocks (l : IList F) :
    l.sortByClass =
      (l.classDistribution.getItems.map (fun c => l.filter (fun x => x.label == c))).flatten ∧
    ∀ c, (l.filter (fun x => x.label == c)).length = l.classDistribution.getCount c := by
  have hc := C10_class_distribution l
  have hs := C14_sort_by_class l
  constructor
  · have h1 := sorted_blocks l.classDistribution.getItems hc.sorted l.sortByClass hs.sorted (by
      intro x hx
      rw [hc.mem_items]
      exact List.mem_map_of_mem (hs.perm.mem_iff.1 hx))
    rw [h1]
    congr 1
    apply List.map_congr_left
    intro c _
    apply hs.stable
    intro a _ b _ ha hb
    simp only [beq_iff_eq] at ha hb
    rw [ha, hb]
  · intro c
    rw [hc.count, List.count, List.countP_map, List.countP_eq_length_filter]
    rfl

example : (IList.sortByClass ([⟨"b", [.discrete "1"], none⟩, ⟨"a", [.discrete "2"], none⟩,
    ⟨"b", [.discrete "3"], none⟩, ⟨"a", [.discrete "4"], none⟩] : IList XR)).map Inst.attrs =
    [[.discrete "2"], [.discrete "4"], [.discrete "1"], [.discrete "3"]] := by decide +kernel

theorem filterMap_range_getElem? {α : Type} (l : List α) (n : Nat) :
    (List.range n).filterMap (fun i => l[i]?) = l.take n := by
  induction n with
  | zero => simp
  | succ n ih =>
    rw [List.range_succ, List.filterMap_append, ih, List.take_add_one]
    cases h : l[n]? <;> simp [h]

/-- **C15.** Whatever permutation the random engine produces, `shuffle` rearranges the list. -/
theorem C15_shuffle_perm (l : IList F) (σ : List Nat) (h : IsPermutation σ l.length) :
    (l.shuffle σ).Perm l := by
  unfold IList.shuffle
  have := h.filterMap (fun i => l[i]?)
  rwa [filterMap_range_getElem?, List.take_length] at this

/-- **C15.** Shuffling changes neither the size nor the class distribution. -/
theorem C15_shuffle_distribution (l : IList F) (σ : List Nat) (h : IsPermutation σ l.length) :
    (l.shuffle σ).length = l.length ∧ (l.shuffle σ).classDistribution = l.classDistribution := by
  have hp := C15_shuffle_perm l σ h
  refine ⟨hp.length_eq, ?_⟩
  rw [classDistribution_eq, classDistribution_eq]
  exact DD.ofList_perm (hp.map _)

example : IsPermutation [2, 0, 1] 3 := by unfold IsPermutation; decide
example : IList.shuffle ([⟨"a", [], none⟩, ⟨"b", [], none⟩, ⟨"c", [], none⟩] : IList XR) [2, 0, 1] =
    [⟨"c", [], none⟩, ⟨"a", [], none⟩, ⟨"b", [], none⟩] := by decide

end Verif
