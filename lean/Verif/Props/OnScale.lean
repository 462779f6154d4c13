import Verif.Props.TreeUnits
import Verif.Props.ForestSubset
import Verif.Props.Sorting
import Verif.Spec.OnScale
import Verif.Model.DblXR

/-! # Property C224: a decision tree sees only the order of the numbers -/

set_option linter.unusedSectionVars false

namespace Verif
open Dbl

section
variable {f : Nat → ℝ → ℝ}

/-! ## one instance -/

theorem onScale_getAttribute (x : Inst ℝ) (i : Nat) :
    (onScale f x).getAttribute i = (x.getAttribute i).map (fun t => t.onScale (f i)) := by
  simp only [Inst.getAttribute, onScale, atR, List.getElem?_mapIdx]
  cases x.attrs[i]? <;> rfl

theorem typesOf_onScale (x : Inst ℝ) : typesOf (onScale f x) = typesOf x := by
  unfold typesOf onScale
  apply List.ext_getElem?
  intro i
  simp only [List.getElem?_map, List.getElem?_mapIdx, Option.map_map]
  congr 1
  funext t
  cases t <;> rfl

open Classical in
/-- instances of the types `ts` on the new scales, others as they are -/
noncomputable def scaled (f : Nat → ℝ → ℝ) (ts : List AttrType) (x : Inst ℝ) : Inst ℝ :=
  if typesOf x = ts then onScale f x else x

variable {ts : List AttrType}

theorem scaled_typed {x : Inst ℝ} (h : typesOf x = ts) : scaled f ts x = onScale f x := if_pos h

theorem typesOf_scaled (x : Inst ℝ) : typesOf (scaled f ts x) = typesOf x := by
  unfold scaled; split
  · exact typesOf_onScale x
  · rfl

theorem scaled_isComposite (x : Inst ℝ) : (scaled f ts x).isComposite = x.isComposite := by
  unfold scaled; split <;> rfl

theorem scaled_possibleLabels (x : Inst ℝ) : (scaled f ts x).possibleLabels = x.possibleLabels := by
  unfold scaled; split <;> rfl

theorem scaled_shape : KeepsShape (scaled f ts) := by
  constructor
  · intro x; unfold scaled; split <;> rfl
  · intro x; unfold scaled; split
    · simp [Inst.attributeSize, onScale]
    · rfl

theorem scaled_map {l : IList ℝ} (h : ∀ x ∈ l, typesOf x = ts) : l.map (scaled f ts) = l.map (onScale f) :=
  List.map_congr_left (fun x hx => scaled_typed (h x hx))

theorem scaled_keeps {i : Nat} (h : ts[i]? ≠ some .continuous) : KeepsAt (scaled f ts) i := by
  intro x
  unfold scaled; split
  · rename_i hx
    rw [onScale_getAttribute]
    cases ha : x.getAttribute i with
    | error e => rfl
    | ok t =>
      have := type_of_attr hx ha
      cases t with
      | continuous v => exact absurd this h
      | _ => rfl
  · rfl

theorem scaled_contVal {x : Inst ℝ} (h : typesOf x = ts) {i : Nat} (hi : ts[i]? = some .continuous) :
    contValAt (scaled f ts x) i = f i (contValAt x i) := by
  have hc := cont_of_type h hi
  rw [scaled_typed h]
  unfold ContAt at hc
  unfold contValAt at hc ⊢
  simp only [onScale, List.getElem?_mapIdx]
  rw [hc]; rfl

theorem scaled_cont {x : Inst ℝ} (h : typesOf x = ts) {i : Nat} (hi : ts[i]? = some .continuous) :
    ContAt (scaled f ts x) i (f i (contValAt x i)) := by
  rw [← scaled_contVal (f := f) h hi]
  exact cont_of_type (by rw [typesOf_scaled, h]) hi

/-! ## sorting -/

theorem sort_value {l : IList ℝ} (hl : ∀ x ∈ l, typesOf x = ts) {i : Nat} (hi : ts[i]? = some .continuous) :
    l.sortByAttribute i = .ok (stableSort (fun x y => contValAt x i <. contValAt y i) l) :=
  sortByAttribute_value l i (fun x => contValAt x i) (fun x hx => cont_of_type (hl x hx) hi)

theorem scaled_sort (hf : ∀ i, StrictMono (f i)) {l : IList ℝ} (hl : ∀ x ∈ l, typesOf x = ts) {i : Nat}
    (hi : ts[i]? = some .continuous) :
    IList.sortByAttribute (l.map (scaled f ts)) i =
      .ok ((stableSort (fun x y => contValAt x i <. contValAt y i) l).map (scaled f ts)) := by
  rw [sort_value (ts := ts) (by intro x hx; obtain ⟨y, hy, rfl⟩ := List.mem_map.1 hx; rw [typesOf_scaled, hl y hy]) hi,
    stableSort_map (scaled f ts) (fun x y => contValAt x i <. contValAt y i)]
  intro x hx y hy
  simp only [scaled_contVal (hl x hx) hi, scaled_contVal (hl y hy) hi, lt_real, (hf i).lt_iff_lt]

theorem sort_sorted (l : IList ℝ) (i : Nat) :
    (stableSort (fun x y => contValAt x i <. contValAt y i) l).Pairwise (fun x y => contValAt x i ≤ contValAt y i) := by
  have := stableSort_sorted (S := fun _ => True) (lt := fun x y : Inst ℝ => contValAt x i <. contValAt y i)
    ⟨by intro a b _ _ h; simp only [lt_real, decide_eq_true_eq, decide_eq_false_iff_not] at h ⊢; exact h.not_gt,
     by intro a b c _ _ _ h1 h2; simp only [lt_real, decide_eq_false_iff_not, not_lt] at h1 h2 ⊢; linarith⟩
    (l := l) (fun _ _ => trivial)
  exact this.imp (by intro a b h; simpa [lt_real] using h)

/-! ## the search for a split -/

/-- the best split so far: the thresholds divide the instances of `d` alike -/
structure SplitAlike (f : Nat → ℝ → ℝ) (ts : List AttrType) (d : IList ℝ) (s t : Node.Best ℝ) : Prop where
  entropy : t.entropy = s.entropy
  attr : t.attr = s.attr
  k : t.k = s.k
  pos : 0 ≤ s.k
  v : ∀ i, s.attr = some i → ts[i]? = some .continuous →
    ∀ x ∈ d, (f i (contValAt x i) ≤ t.v ↔ contValAt x i ≤ s.v)

theorem scaled_indexedStep {d l : IList ℝ} {i : Nat} (hi : ts[i]? = some .discreteIndexed)
    {st st' t : DD × Node.Best ℝ} (h1 : t.1 = st.1) (h2 : SplitAlike f ts d st.2 t.2) {k : Nat}
    (h : Node.indexedStep l i st k = .ok st') :
    ∃ t', Node.indexedStep (l.map (scaled f ts)) i t k = .ok t' ∧ t'.1 = st'.1 ∧ SplitAlike f ts d st'.2 t'.2 := by
  unfold Node.indexedStep at h ⊢
  rw [keeps_indexedDist scaled_shape (scaled_keeps (by rw [hi]; simp))]
  rw [bind_ok_iff] at h
  obtain ⟨dd, hd, h⟩ := h
  cases h
  rw [hd, res_bind_ok]
  refine ⟨_, rfl, ?_⟩
  rw [h1, h2.entropy, List.length_map]
  split
  · refine ⟨rfl, ?_⟩
    simp only
    split
    · exact ⟨rfl, rfl, rfl, by simp, fun j hj hc => by cases hj; rw [hi] at hc; cases hc⟩
    · exact h2
  · exact ⟨h1, h2⟩

/-- halfway between two neighbouring values -/
theorem halfway (hf : ∀ i, StrictMono (f i)) {i : Nat} {p v w : ℝ} (hpv : p < v) (hw : w ≤ p ∨ v ≤ w) :
    f i w ≤ (f i p + f i v) / 2 ↔ w ≤ (p + v) / 2 := by
  have h1 := hf i hpv
  rcases hw with hw | hw
  · have := (hf i).monotone hw
    constructor <;> intro <;> linarith
  · have := (hf i).monotone hw
    constructor <;> intro <;> linarith

theorem scaled_sweep (hf : ∀ i, StrictMono (f i)) {d : IList ℝ} {n i : Nat} (hi : ts[i]? = some .continuous) :
    ∀ (suf : IList ℝ) (s s' t : Node.Sweep ℝ), (∀ x ∈ suf, typesOf x = ts) →
      suf.Pairwise (fun x y => contValAt x i ≤ contValAt y i) →
      (∀ p, s.prev = some p → ∀ x ∈ suf, p ≤ contValAt x i) →
      (∀ x ∈ d, x ∈ suf ∨ ∃ p, s.prev = some p ∧ contValAt x i ≤ p) →
      t.prev = s.prev.map (f i) → t.left = s.left → t.right = s.right → SplitAlike f ts d s.best t.best →
      suf.foldlM (Node.sweepStep n i) s = .ok s' →
      ∃ t', (suf.map (scaled f ts)).foldlM (Node.sweepStep n i) t = .ok t' ∧ SplitAlike f ts d s'.best t'.best := by
  intro suf
  induction suf with
  | nil => intro s s' t _ _ _ _ _ _ _ hb h; cases h; exact ⟨t, rfl, hb⟩
  | cons x suf ih =>
    intro s s' t hty hso hge hco hp hl hr hb h
    rw [List.foldlM_cons, bind_ok_iff] at h
    obtain ⟨s1, h1, h⟩ := h
    have hx := hty x (by simp)
    unfold Node.sweepStep at h1
    rw [contAt_ok (cont_of_type hx hi), res_bind_ok] at h1
    cases h1
    rw [List.map_cons, List.foldlM_cons]
    unfold Node.sweepStep
    rw [contAt_ok (scaled_cont hx hi), res_bind_ok, res_pure, res_bind_ok]
    have hso' := List.pairwise_cons.1 hso
    obtain ⟨prev, left, right, best⟩ := s
    obtain ⟨prev', left', right', best'⟩ := t
    simp only at hp hl hr hb hge hco
    subst hp hl hr
    -- the sweep after this value
    have key : (Node.sweepValue n i ⟨prev, left', right', best⟩ (contValAt x i)).prev = some (contValAt x i) ∧
        (Node.sweepValue n i ⟨prev.map (f i), left', right', best'⟩ (f i (contValAt x i))).prev = some (f i (contValAt x i)) ∧
        (Node.sweepValue n i ⟨prev, left', right', best⟩ (contValAt x i)).left = left' ∧
        (Node.sweepValue n i ⟨prev, left', right', best⟩ (contValAt x i)).right = right' ∧
        (Node.sweepValue n i ⟨prev.map (f i), left', right', best'⟩ (f i (contValAt x i))).left = left' ∧
        (Node.sweepValue n i ⟨prev.map (f i), left', right', best'⟩ (f i (contValAt x i))).right = right' ∧
        SplitAlike f ts d (Node.sweepValue n i ⟨prev, left', right', best⟩ (contValAt x i)).best
          (Node.sweepValue n i ⟨prev.map (f i), left', right', best'⟩ (f i (contValAt x i))).best := by
      cases prev with
      | none => exact ⟨rfl, rfl, rfl, rfl, rfl, rfl, hb⟩
      | some p =>
        simp only [Node.sweepValue, Option.map_some, Node.sweepSplit]
        have e : (f i (contValAt x i) = f i p) = (contValAt x i = p) := by simp [(hf i).injective.eq_iff]
        by_cases hvp : contValAt x i = p
        · simp only [eq_real, hvp, decide_true, Bool.true_eq_false, if_false, true_and]
          exact hb
        · simp only [eq_real, e, hvp, decide_false, if_true]
          simp only [true_and, hb.entropy]
          split
          · refine ⟨rfl, rfl, hb.k, hb.pos, ?_⟩
            intro j hj _ y hy
            cases hj
            simp only [add_real, div_real]
            have h2 : ((Dbl.ofInt 2 : ℝ)) = 2 := by simp
            rw [h2]
            have hlt : p < contValAt x i := lt_of_le_of_ne (hge p rfl x (by simp)) (Ne.symm hvp)
            refine halfway hf hlt ?_
            rcases hco y hy with hy | ⟨q, hq, hy⟩
            · rcases List.mem_cons.1 hy with rfl | hy
              · exact .inr le_rfl
              · exact .inr (hso'.1 y hy)
            · cases hq; exact .inl hy
          · exact hb
    obtain ⟨k1, k2, k3, k4, k5, k6, k7⟩ := key
    refine ih _ s' _ (fun y hy => hty y (by simp [hy])) hso'.2 ?_ ?_ ?_ ?_ ?_ ?_ h
    · intro p hp y hy
      rw [k1] at hp; cases hp
      exact hso'.1 y hy
    · intro y hy
      rcases hco y hy with hy | ⟨p, hp, hyp⟩
      · rcases List.mem_cons.1 hy with rfl | hy
        · exact .inr ⟨_, k1, le_rfl⟩
        · exact .inl hy
      · exact .inr ⟨_, k1, hyp.trans (hge p hp x (by simp))⟩
    · simp only [k1, k2, Option.map_some]
    · simp only [k3, k5, scaled_shape.label]
    · simp only [k4, k6, scaled_shape.label]
    · exact k7

/-- the search in the data on the new scales -/
structure ScaledSearch (f : Nat → ℝ → ℝ) (ts : List AttrType) (d : IList ℝ) (s t : Node.Search ℝ) : Prop where
  data : t.data = s.data.map (scaled f ts)
  mem : ∀ x, x ∈ s.data ↔ x ∈ d
  dist : t.classDist = s.classDist
  best : SplitAlike f ts d s.best t.best

theorem scaled_at {l : IList ℝ} {k : Nat} {x : Inst ℝ} (h : atR l k = .ok x) :
    atR (l.map (scaled f ts)) k = .ok (scaled f ts x) := by
  rw [keeps_atR, h]; rfl

theorem scaled_attr {x : Inst ℝ} (hx : typesOf x = ts) {i : Nat} {t : Attr ℝ} (h : x.getAttribute i = .ok t) :
    (scaled f ts x).getAttribute i = .ok (t.onScale (f i)) := by
  rw [scaled_typed hx, onScale_getAttribute, h]; rfl

theorem scaled_search (hf : ∀ i, StrictMono (f i)) {d : IList ℝ} (hts : ∀ x ∈ d, typesOf x = ts)
    {s s' t : Node.Search ℝ} (hst : ScaledSearch f ts d s t) {i : Nat} (h : Node.searchStep s i = .ok s') :
    ∃ t', Node.searchStep t i = .ok t' ∧ ScaledSearch f ts d s' t' := by
  obtain ⟨data, cd, best⟩ := s
  obtain ⟨data', cd', best'⟩ := t
  obtain ⟨h1, hm, h2, hb⟩ := hst
  simp only at h1 hm h2 hb
  subst h1 h2
  have hty : ∀ x ∈ data, typesOf x = ts := fun x hx => hts x ((hm x).1 hx)
  unfold Node.searchStep at h ⊢
  simp only [bind_ok_iff] at h
  obtain ⟨x0, hx0, at0, hat, h⟩ := h
  have hx0t := hty x0 (List.mem_of_getElem? (atR_eq_ok.1 hx0))
  have hti := type_of_attr hx0t hat
  simp only [scaled_at hx0, res_bind_ok, scaled_attr hx0t hat]
  unfold Node.searchKind at h ⊢
  cases at0 with
  | indexed v j m =>
    simp only [Attr.onScale, Attr.isDiscreteIndexed, if_true, Attr.getMaxIndex, res_bind_ok] at h ⊢
    unfold Node.searchIndexed at h ⊢
    rw [bind_ok_iff] at h
    obtain ⟨q, hq, h⟩ := h
    cases h
    obtain ⟨t, e, e1, e2⟩ := foldlM_sim id (fun (st t : DD × Node.Best ℝ) => t.1 = st.1 ∧ SplitAlike f ts d st.2 t.2) _
      (Node.indexedStep (data.map (scaled f ts)) i) (List.range m.toNat) (by
        intro k _ st t st' hst h
        obtain ⟨t', e1, e2⟩ := scaled_indexedStep hti hst.1 hst.2 h
        exact ⟨t', e1, e2⟩) (cd', best) (cd', best') q ⟨rfl, hb⟩ hq
    rw [List.map_id] at e
    rw [e]
    exact ⟨_, rfl, rfl, hm, e1, e2⟩
  | discrete v =>
    simp only [Attr.onScale, Attr.isDiscreteIndexed, Attr.isDiscrete, Bool.false_eq_true, if_false, if_true] at h ⊢
    unfold Node.searchDiscrete Node.entropyForDiscreteAttribute at h ⊢
    simp only [bind_ok_iff] at h
    obtain ⟨e, ⟨ds, hds, he⟩, h⟩ := h
    cases he; cases h
    rw [keeps_attributeDist scaled_shape (scaled_keeps (by rw [hti]; simp [typeOf]))]
    simp only [hds, res_bind_ok, res_pure, List.length_map, hb.entropy]
    refine ⟨_, rfl, rfl, hm, rfl, ?_⟩
    simp only
    split
    · exact ⟨rfl, rfl, hb.k, hb.pos, fun j hj hc => by cases hj; rw [hti] at hc; cases hc⟩
    · exact hb
  | continuous v =>
    simp only [Attr.onScale, Attr.isDiscreteIndexed, Attr.isDiscrete, Attr.isContinuous, Bool.false_eq_true, if_false, if_true] at h ⊢
    unfold Node.searchContinuous at h ⊢
    simp only [bind_ok_iff] at h
    obtain ⟨so, hso, q, hq, h⟩ := h
    cases h
    rw [sort_value hty hti] at hso
    rw [scaled_sort hf hty hti, res_bind_ok]
    have hsorted := sort_sorted data i
    simp only [Except.ok.injEq] at hso
    rw [hso] at hsorted ⊢
    have hmem : ∀ x, x ∈ so ↔ x ∈ data := fun x => by rw [← hso]; exact (stableSort_perm _ _).mem_iff
    obtain ⟨t, e, hR⟩ := scaled_sweep hf (d := d) hti so ⟨none, so.classDistribution, DD.empty, best⟩ q
      ⟨none, so.classDistribution, DD.empty, best'⟩ (fun x hx => hty x ((hmem x).1 hx)) hsorted
      (by intro p hp; cases hp) (fun x hx => .inl ((hmem x).2 ((hm x).2 hx))) rfl rfl rfl hb hq
    rw [keeps_classDist scaled_shape, List.length_map, e]
    exact ⟨_, rfl, rfl, fun x => (hmem x).trans (hm x), rfl, hR⟩
  | binary v =>
    simp only [Attr.onScale, Attr.isDiscreteIndexed, Attr.isDiscrete, Attr.isContinuous, Bool.false_eq_true, if_false] at h ⊢
    cases h
    exact ⟨_, rfl, rfl, hm, rfl, hb⟩

/-! ## answers -/

/-- the same answers to `x` and `x'` -/
structure AnswersAlike (x x' : Inst ℝ) (n n' : Node ℝ) : Prop where
  plain : n'.predictPlain x' = n.predictPlain x
  composite : n'.predictComposite x' = n.predictComposite x
  probability : n'.predictProbability x' = n.predictProbability x

/-- a walk along the children stops at the same place -/
def WalkAlike (x x' : Inst ℝ) : List (Node ℝ) → List (Node ℝ) → Prop
  | [], [] => True
  | n :: ns, n' :: ns' => n'.cond.satisfy x' = n.cond.satisfy x ∧
      (n.cond.satisfy x = .ok true → AnswersAlike x x' n n') ∧ (n.cond.satisfy x = .ok false → WalkAlike x x' ns ns')
  | _, _ => False

theorem WalkAlike.same {x x' : Inst ℝ} (hp : x'.possibleLabels = x.possibleLabels) (c c' : Cond ℝ) (l : Bool) (s : String)
    (d : DD) {ch ch' : List (Node ℝ)} (h : WalkAlike x x' ch ch') :
    AnswersAlike x x' (.mk c l s d ch) (.mk c' l s d ch') := by
  have key : ∀ (ch ch' : List (Node ℝ)), WalkAlike x x' ch ch' →
      (∀ s, Node.predictPlainIn s ch' x' = Node.predictPlainIn s ch x) ∧
      (∀ s, Node.predictCompositeIn s ch' x' = Node.predictCompositeIn s ch x) ∧
      (∀ d, Node.predictProbabilityIn d ch' x' = Node.predictProbabilityIn d ch x) := by
    intro ch
    induction ch with
    | nil =>
      intro ch' h
      cases ch' with
      | nil => exact ⟨fun s => by rw [Node.predictPlainIn, Node.predictPlainIn],
          fun s => by rw [Node.predictCompositeIn, Node.predictCompositeIn],
          fun s => by rw [Node.predictProbabilityIn, Node.predictProbabilityIn]⟩
      | cons n ns => exact absurd h (by simp [WalkAlike])
    | cons n ns ih =>
      intro ch' h
      cases ch' with
      | nil => exact absurd h (by simp [WalkAlike])
      | cons n' ns' =>
        obtain ⟨h1, h2, h3⟩ := h
        have h3 := fun hh => ih ns' (h3 hh)
        simp only [Node.predictPlainIn, Node.predictCompositeIn, Node.predictProbabilityIn, h1]
        cases hs : n.cond.satisfy x with
        | error e => exact ⟨fun _ => rfl, fun _ => rfl, fun _ => rfl⟩
        | ok b =>
          cases b with
          | true =>
            have h2 := h2 hs
            simp only [res_bind_ok, if_true, h2.plain, h2.composite, h2.probability, implies_true, and_self]
          | false =>
            have h3 := h3 hs
            simpa only [res_bind_ok, Bool.false_eq_true, if_false] using h3
  obtain ⟨k1, k2, k3⟩ := key ch ch' h
  exact ⟨by simp only [Node.predictPlain, k1], by simp only [Node.predictComposite, hp, k2], by simp only [Node.predictProbability, k3]⟩

/-- two children, for the instances in `d` -/
def ChildAlike (f : Nat → ℝ → ℝ) (ts : List AttrType) (d : IList ℝ) (n n' : Node ℝ) : Prop :=
  n'.sketch = n.sketch ∧ ∀ x ∈ d, n'.cond.satisfy (scaled f ts x) = n.cond.satisfy x ∧
    (n.cond.satisfy x = .ok true → AnswersAlike x (scaled f ts x) n n')

theorem ChildAlike.walk {d : IList ℝ} {ch ch' : List (Node ℝ)} (h : List.Forall₂ (ChildAlike f ts d) ch ch') {x : Inst ℝ}
    (hx : x ∈ d) : WalkAlike x (scaled f ts x) ch ch' := by
  induction h with
  | nil => trivial
  | cons h1 _ ih => exact ⟨(h1.2 x hx).1, (h1.2 x hx).2, fun _ => ih⟩

theorem sketchIn_eq {F : Type} (ch : List (Node F)) : Node.sketchIn ch = ch.map Node.sketch := by
  induction ch with
  | nil => rw [Node.sketchIn]; rfl
  | cons n ns ih => rw [Node.sketchIn, ih]; rfl

theorem ChildAlike.sketch {d : IList ℝ} {ch ch' : List (Node ℝ)} (h : List.Forall₂ (ChildAlike f ts d) ch ch') :
    Node.sketchIn ch' = Node.sketchIn ch := by
  induction h with
  | nil => rfl
  | cons h1 _ ih => rw [Node.sketchIn, Node.sketchIn, ih, h1.1]

theorem mapM_forall2 {α β γ : Type} {R : β → γ → Prop} {g : α → Res β} {g' : α → Res γ} {l : List α} {ys : List β}
    (h : ∀ a ∈ l, ∀ y, g a = .ok y → ∃ y', g' a = .ok y' ∧ R y y') (hy : l.mapM g = .ok ys) :
    ∃ ys', l.mapM g' = .ok ys' ∧ List.Forall₂ R ys ys' := by
  induction l generalizing ys with
  | nil => cases hy; exact ⟨[], rfl, .nil⟩
  | cons a l ih =>
    rw [List.mapM_cons] at hy
    simp only [bind_ok_iff] at hy
    obtain ⟨y, e1, zs, e2, hy⟩ := hy
    cases hy
    obtain ⟨y', e1', hR⟩ := h a (by simp) y e1
    obtain ⟨zs', e2', hRs⟩ := ih (fun b hb => h b (by simp [hb])) e2
    exact ⟨y' :: zs', by rw [List.mapM_cons, e1', res_bind_ok, e2', res_bind_ok]; rfl, .cons hR hRs⟩

/-! ## growing -/

/-- the recursion on the data on the new scales -/
def ScaledRec (f : Nat → ℝ → ℝ) (ts : List AttrType) (rec : IList ℝ → Cond ℝ → Res (Node ℝ)) : Prop :=
  ∀ (d : IList ℝ) (c c' : Cond ℝ) (n : Node ℝ), (∀ x ∈ d, typesOf x = ts) → c'.sketch = c.sketch → rec d c = .ok n →
    ∃ n', rec (d.map (scaled f ts)) c' = .ok n' ∧ n'.sketch = n.sketch ∧ ∀ x ∈ d, AnswersAlike x (scaled f ts x) n n'

theorem scaled_childrenIndexed {rec : IList ℝ → Cond ℝ → Res (Node ℝ)} (hrec : ScaledRec f ts rec)
    (hcond : ∀ p c n, rec p c = .ok n → n.cond = c) {data : IList ℝ} (hts : ∀ x ∈ data, typesOf x = ts) {i : Nat}
    (hi : ts[i]? = some .discreteIndexed) {k m : Int} (hk : 0 ≤ k) {ch : List (Node ℝ)}
    (h : Node.childrenIndexed rec data i k m = .ok ch) :
    ∃ ch', Node.childrenIndexed rec (data.map (scaled f ts)) i k m = .ok ch' ∧ Node.sketchIn ch' = Node.sketchIn ch ∧
      ∀ x ∈ data, WalkAlike x (scaled f ts x) ch ch' := by
  have hv : ∀ x ∈ data, IndexAt x i (idxValAt x i) := fun x hx => idx_of_type (hts x hx) hi
  obtain ⟨p0, p1, e, h0, h1, _⟩ := C22_partition_by_indexed data i k _ hv
  unfold Node.childrenIndexed at h ⊢
  rw [keeps_byIndexed (scaled_keeps (by rw [hi]; simp)), e]
  rw [e] at h
  simp only [res_bind_ok, atR_cons_zero, show atR [p0, p1] 1 = .ok p1 from rfl, bind_ok_iff] at h
  obtain ⟨c0, hc0, c1, hc1, h⟩ := h
  cases h
  obtain ⟨c0', e0, s0, a0⟩ := hrec p0 _ _ _ (by intro x hx; rw [h0] at hx; exact hts x (List.mem_filter.1 hx).1) rfl hc0
  obtain ⟨c1', e1, s1, a1⟩ := hrec p1 _ _ _ (by intro x hx; rw [h1] at hx; exact hts x (List.mem_filter.1 hx).1) rfl hc1
  refine ⟨[c0', c1'], ?_, by simp only [Node.sketchIn, s0, s1], ?_⟩
  · simp only [Except.map, res_bind_ok, List.map_cons, List.map_nil, atR_cons_zero,
      show atR [p0.map (scaled f ts), p1.map (scaled f ts)] 1 = .ok (p1.map (scaled f ts)) from rfl, e0, e1, res_pure]
  · intro x hx
    have hx' : IndexAt (scaled f ts x) i (idxValAt x i) := by
      obtain ⟨v, m', hxx⟩ := hv x hx
      have := scaled_keeps (f := f) (ts := ts) (i := i) (by rw [hi]; simp) x
      simp only [Inst.getAttribute, atR] at this
      refine ⟨v, m', ?_⟩
      rw [hxx] at this
      cases hs : (scaled f ts x).attrs[i]? with
      | none => rw [hs] at this; cases this
      | some t => rw [hs] at this; cases this; rfl
    have hk' : k ≠ -1 := by omega
    refine ⟨?_, ?_, ?_⟩
    · rw [hcond _ _ _ e0, hcond _ _ _ hc0, satisfy_indexed (hv x hx) hk', satisfy_indexed hx' hk']
    · intro hs
      rw [hcond _ _ _ hc0, satisfy_indexed (hv x hx) hk'] at hs
      exact a0 x (by rw [h0]; exact List.mem_filter.2 ⟨hx, by simpa using hs⟩)
    · intro hs
      rw [hcond _ _ _ hc0, satisfy_indexed (hv x hx) hk'] at hs
      refine ⟨by rw [hcond _ _ _ e1, hcond _ _ _ hc1, satisfy_other, satisfy_other], fun _ => ?_, fun _ => trivial⟩
      exact a1 x (by rw [h1]; exact List.mem_filter.2 ⟨hx, by simpa using hs⟩)

theorem scaled_childrenContinuous {rec : IList ℝ → Cond ℝ → Res (Node ℝ)} (hrec : ScaledRec f ts rec)
    (hcond : ∀ p c n, rec p c = .ok n → n.cond = c) {data : IList ℝ} (hts : ∀ x ∈ data, typesOf x = ts) {i : Nat}
    (hi : ts[i]? = some .continuous) {v v' : ℝ}
    (hvv : ∀ x ∈ data, (f i (contValAt x i) ≤ v' ↔ contValAt x i ≤ v)) {ch : List (Node ℝ)}
    (h : Node.childrenContinuous rec data i v = .ok ch) :
    ∃ ch', Node.childrenContinuous rec (data.map (scaled f ts)) i v' = .ok ch' ∧ Node.sketchIn ch' = Node.sketchIn ch ∧
      ∀ x ∈ data, WalkAlike x (scaled f ts x) ch ch' := by
  have hv : ∀ x ∈ data, ContAt x i (contValAt x i) := fun x hx => cont_of_type (hts x hx) hi
  obtain ⟨p0, p1, e, h0, h1, _⟩ := C23_partition_by_threshold data i v _ hv
  obtain ⟨q0, q1, e', g0, g1, _⟩ := C23_partition_by_threshold (data.map (scaled f ts)) i v' (fun x => contValAt x i) (by
    intro x hx
    obtain ⟨y, hy, rfl⟩ := List.mem_map.1 hx
    exact cont_of_type (by rw [typesOf_scaled]; exact hts y hy) hi)
  have hdec : ∀ x ∈ data, (contValAt (scaled f ts x) i <=. v') = (contValAt x i <=. v) := by
    intro x hx
    rw [scaled_contVal (hts x hx) hi]
    simp only [le_real, hvv x hx]
  have hq0 : q0 = p0.map (scaled f ts) := by
    rw [g0, h0, List.filter_map]
    congr 1
    exact List.filter_congr (fun x hx => hdec x hx)
  have hq1 : q1 = p1.map (scaled f ts) := by
    rw [g1, h1, List.filter_map]
    congr 1
    exact List.filter_congr (fun x hx => by simp only [Function.comp, hdec x hx])
  unfold Node.childrenContinuous at h ⊢
  rw [e', hq0, hq1]
  rw [e] at h
  simp only [res_bind_ok, atR_cons_zero, show atR [p0, p1] 1 = .ok p1 from rfl, bind_ok_iff] at h
  obtain ⟨c0, hc0, c1, hc1, h⟩ := h
  cases h
  obtain ⟨c0', e0, s0, a0⟩ := hrec p0 ⟨i, '<', some (.continuous v)⟩ ⟨i, '<', some (.continuous v')⟩ _
    (by intro x hx; rw [h0] at hx; exact hts x (List.mem_filter.1 hx).1) rfl hc0
  obtain ⟨c1', e1, s1, a1⟩ := hrec p1 ⟨i, '>', some (.continuous v)⟩ ⟨i, '>', some (.continuous v')⟩ _
    (by intro x hx; rw [h1] at hx; exact hts x (List.mem_filter.1 hx).1) rfl hc1
  refine ⟨[c0', c1'], ?_, by simp only [Node.sketchIn, s0, s1], ?_⟩
  · simp only [res_bind_ok, atR_cons_zero,
      show atR [p0.map (scaled f ts), p1.map (scaled f ts)] 1 = .ok (p1.map (scaled f ts)) from rfl, e0, e1, res_pure]
  · intro x hx
    have hx' := scaled_cont (f := f) (hts x hx) hi
    have hx2 := hvv x hx
    refine ⟨?_, ?_, ?_⟩
    · rw [hcond _ _ _ e0, hcond _ _ _ hc0, (satisfy_threshold (hv x hx)).1, (satisfy_threshold hx').1]
      simp only [le_real, hx2]
    · intro hs
      rw [hcond _ _ _ hc0, (satisfy_threshold (hv x hx)).1] at hs
      exact a0 x (by rw [h0]; exact List.mem_filter.2 ⟨hx, by simpa using hs⟩)
    · intro hs
      rw [hcond _ _ _ hc0, (satisfy_threshold (hv x hx)).1] at hs
      refine ⟨?_, fun _ => ?_, fun _ => trivial⟩
      · rw [hcond _ _ _ e1, hcond _ _ _ hc1, (satisfy_threshold (hv x hx)).2, (satisfy_threshold hx').2]
        simp only [lt_real, ← not_le, hx2]
      · exact a1 x (by rw [h1]; exact List.mem_filter.2 ⟨hx, by simpa using hs⟩)

theorem scaled_childrenDiscrete {rec : IList ℝ → Cond ℝ → Res (Node ℝ)} (hrec : ScaledRec f ts rec)
    (hcond : ∀ p c n, rec p c = .ok n → n.cond = c) {data : IList ℝ} (hts : ∀ x ∈ data, typesOf x = ts) {i : Nat}
    (hi : ts[i]? = some .discrete) {ch : List (Node ℝ)} (h : Node.childrenDiscrete rec data i = .ok ch) :
    ∃ ch', Node.childrenDiscrete rec (data.map (scaled f ts)) i = .ok ch' ∧ Node.sketchIn ch' = Node.sketchIn ch ∧
      ∀ x ∈ data, WalkAlike x (scaled f ts x) ch ch' := by
  have hk := scaled_keeps (f := f) (ts := ts) (i := i) (by rw [hi]; simp)
  have hv : ∀ x ∈ data, x.attrs[i]? = some (.discrete (discValAt x i)) := fun x hx => disc_of_type (hts x hx) hi
  have hv' : ∀ x ∈ data, DiscAt x i (discValAt x i) := fun x hx => .inl (hv x hx)
  have hw : ∀ x ∈ data, (scaled f ts x).attrs[i]? = some (.discrete (discValAt x i)) := by
    intro x hx
    have := hk x
    simp only [Inst.getAttribute, atR] at this
    rw [hv x hx] at this
    cases hs : (scaled f ts x).attrs[i]? with
    | none => rw [hs] at this; cases this
    | some t => rw [hs] at this; cases this; rfl
  obtain ⟨vs, ps, hfo, e, hps, _, _⟩ := C21_partition_by_discrete data i _ hv'
  obtain ⟨vs', e', hfo'⟩ := C09_attribute_values data i _ hv'
  have hvs : vs' = vs := hfo'.unique hfo
  subst hvs
  unfold Node.childrenDiscrete at h ⊢
  rw [keeps_valueList hk, keeps_byDiscrete hk, e', e]
  rw [e', e] at h
  simp only [res_bind_ok, Except.map] at h ⊢
  obtain ⟨ch', e2, hR⟩ := mapM_forall2 (R := ChildAlike f ts data)
    (g' := Node.childDiscrete rec (ps.map (List.map (scaled f ts))) i) (by
      rintro ⟨w, k⟩ hwk n hn
      have hwk' := (List.mem_zipIdx_iff_getElem?.1 hwk)
      simp only at hwk'
      unfold Node.childDiscrete at hn ⊢
      simp only [keeps_atR, bind_ok_iff] at hn ⊢
      obtain ⟨p, hp, hn⟩ := hn
      have hpe : p = data.filter (fun x => discValAt x i == w) := by
        have h1 := atR_eq_ok.1 hp
        rw [hps, List.getElem?_map, hwk'] at h1
        exact (Option.some.inj h1).symm
      obtain ⟨n', e3, s3, a3⟩ := hrec p _ ⟨i, '=', some (.discrete w)⟩ n
        (by intro x hx; rw [hpe] at hx; exact hts x (List.mem_filter.1 hx).1) rfl hn
      refine ⟨n', ⟨_, by rw [hp]; rfl, e3⟩, s3, ?_⟩
      intro x hx
      rw [hcond _ _ _ e3, hcond _ _ _ hn, satisfy_discrete (hv x hx), satisfy_discrete (hw x hx)]
      refine ⟨rfl, fun hs => a3 x ?_⟩
      rw [hpe]
      exact List.mem_filter.2 ⟨hx, by simpa using hs⟩) h
  exact ⟨ch', e2, ChildAlike.sketch hR, fun x hx => ChildAlike.walk hR hx⟩

theorem scaled_grow (hf : ∀ i, StrictMono (f i)) (param : Node.SubsetParam) (st : Bool) :
    ∀ fuel : Nat, ScaledRec f ts (Node.grow param st fuel) := by
  intro fuel
  induction fuel with
  | zero => intro d c c' n _ _ h; cases h
  | succ fuel ih =>
    intro data c c' n hts hc h
    have hca : c'.attr = c.attr := by have := congrArg Cond.attr hc; exact this
    rw [Node.grow] at h ⊢
    simp only [keeps_classLabels scaled_shape, keeps_distinct scaled_shape] at h ⊢
    have leaf : ∀ x ∈ data, ∀ (l : String) (dd : DD),
        AnswersAlike x (scaled f ts x) (.mk c true l dd []) (.mk c' true l dd []) :=
      fun x _ l dd => WalkAlike.same (scaled_possibleLabels x) c c' true l dd (ch := []) (ch' := []) trivial
    split at h
    · rename_i h1
      cases h
      rw [if_pos h1]
      exact ⟨_, rfl, by simp only [Node.sketch, hc], fun x hx => leaf x hx _ _⟩
    · rename_i h1
      rw [if_neg h1]
      split at h
      · rename_i h2
        cases h
        rw [hca, if_pos h2]
        exact ⟨_, rfl, by simp only [Node.sketch, hc], fun x hx => leaf x hx _ _⟩
      · rename_i h2
        rw [hca, if_neg h2]
        unfold Node.splitNode at h ⊢
        simp only [bind_ok_iff] at h
        obtain ⟨x0, hx0, is, his, s, hs, h⟩ := h
        simp only [scaled_at hx0, res_bind_ok, scaled_shape.size, his, keeps_classDist scaled_shape]
        obtain ⟨t, e, hR⟩ := foldlM_sim id (ScaledSearch f ts data) _ Node.searchStep is
          (fun i _ s t s' hst h => scaled_search hf hts hst h)
          ⟨data, data.classDistribution, ⟨data.classDistribution.entropy, none, 0, Dbl.zero⟩⟩
          ⟨data.map (scaled f ts), data.classDistribution, ⟨data.classDistribution.entropy, none, 0, Dbl.zero⟩⟩ s
          ⟨rfl, fun _ => Iff.rfl, rfl, rfl, rfl, rfl, le_rfl, by simp⟩ hs
        rw [List.map_id] at e
        rw [e, res_bind_ok]
        unfold Node.finish at h ⊢
        rw [hR.best.attr]
        cases hb : s.best.attr with
        | none =>
          rw [hb] at h
          cases h
          exact ⟨_, rfl, by simp only [Node.sketch, hc], fun x hx => leaf x hx _ _⟩
        | some i =>
          rw [hb] at h
          simp only [bind_ok_iff] at h
          obtain ⟨y0, hy0, at0, hat, ch, hch, h⟩ := h
          cases h
          have hty : ∀ x ∈ s.data, typesOf x = ts := fun x hx => hts x ((hR.mem x).1 hx)
          have hy0t := hty y0 (List.mem_of_getElem? (atR_eq_ok.1 hy0))
          have hti := type_of_attr hy0t hat
          have hcond : ∀ p c n, Node.grow (F := ℝ) param st fuel p c = .ok n → n.cond = c := fun p c n h => grow_cond h
          have hch' : ∃ ch', Node.childrenKind (Node.grow param st fuel) (s.data.map (scaled f ts)) t.best i
              (at0.onScale (f i)) = .ok ch' ∧ Node.sketchIn ch' = Node.sketchIn ch ∧
              ∀ x ∈ s.data, WalkAlike x (scaled f ts x) ch ch' := by
            unfold Node.childrenKind at hch ⊢
            cases at0 with
            | indexed v j m =>
              simp only [Attr.onScale, Attr.isDiscreteIndexed, if_true, Attr.getMaxIndex, res_bind_ok, hR.best.k] at hch ⊢
              exact scaled_childrenIndexed ih hcond hty hti hR.best.pos hch
            | discrete v =>
              simp only [Attr.onScale, Attr.isDiscreteIndexed, Attr.isDiscrete, Bool.false_eq_true, if_false, if_true] at hch ⊢
              exact scaled_childrenDiscrete ih hcond hty hti hch
            | continuous v =>
              simp only [Attr.onScale, Attr.isDiscreteIndexed, Attr.isDiscrete, Attr.isContinuous, Bool.false_eq_true, if_false, if_true] at hch ⊢
              exact scaled_childrenContinuous ih hcond hty hti
                (fun x hx => hR.best.v i hb hti x ((hR.mem x).1 hx)) hch
            | binary v =>
              simp only [Attr.onScale, Attr.isDiscreteIndexed, Attr.isDiscrete, Attr.isContinuous, Bool.false_eq_true, if_false] at hch ⊢
              cases hch
              exact ⟨[], rfl, rfl, fun _ _ => trivial⟩
          obtain ⟨ch', e1, e2, e3⟩ := hch'
          simp only [hR.data, scaled_at hy0, res_bind_ok, scaled_attr hy0t hat, e1, res_pure]
          exact ⟨_, rfl, by simp only [Node.sketch, hc, e2],
            fun x hx => WalkAlike.same (scaled_possibleLabels x) c c' _ _ _ (e3 x ((hR.mem x).2 hx))⟩

theorem AnswersAlike.treePredict {x x' : Inst ℝ} {n n' : Node ℝ} (h : AnswersAlike x x' n n') (hc : x'.isComposite = x.isComposite)
    (hp : x'.possibleLabels = x.possibleLabels) : Verif.treePredict n' x' = Verif.treePredict n x := by
  unfold Verif.treePredict Node.predict
  rw [hc, hp, h.plain, h.composite]

end

/-! ## the properties -/

/-- **C224.** Put the numbers of every column on another scale, by any strictly increasing function:
a decision tree trained without pruning tests the same attributes at the same places, has the same
leaves with the same class distributions, and answers every training instance as before. -/
theorem C224_tree_scale (data : IList ℝ) (ts : List AttrType) (hts : ∀ x ∈ data, typesOf x = ts)
    (f : Nat → ℝ → ℝ) (hf : ∀ i, StrictMono (f i)) (t : Node ℝ) (h : treeTrain data none = .ok t) :
    ∃ t', treeTrain (data.map (onScale f)) none = .ok t' ∧ t'.sketch = t.sketch ∧
      ∀ x ∈ data, treePredict t' (onScale f x) = treePredict t x ∧
        t'.predictProbability (onScale f x) = t.predictProbability x := by
  unfold treeTrain at h ⊢
  obtain ⟨t', e1, e2, e3⟩ := scaled_grow (ts := ts) hf none false _ data Cond.root Cond.root t hts rfl h
  rw [scaled_map hts] at e1
  refine ⟨t', by simpa only [List.length_map] using e1, e2, fun x hx => ?_⟩
  rw [← scaled_typed (f := f) (hts x hx)]
  exact ⟨(e3 x hx).treePredict (scaled_isComposite x) (scaled_possibleLabels x), (e3 x hx).probability⟩

/-- **C224.** The same for decision stumps. -/
theorem C224_stump_scale (data : IList ℝ) (ts : List AttrType) (hts : ∀ x ∈ data, typesOf x = ts)
    (f : Nat → ℝ → ℝ) (hf : ∀ i, StrictMono (f i)) (t : Node ℝ) (h : stumpTrain data = .ok t) :
    ∃ t', stumpTrain (data.map (onScale f)) = .ok t' ∧ t'.sketch = t.sketch ∧
      ∀ x ∈ data, treePredict t' (onScale f x) = treePredict t x ∧
        t'.predictProbability (onScale f x) = t.predictProbability x := by
  unfold stumpTrain at h ⊢
  obtain ⟨t', e1, e2, e3⟩ := scaled_grow (ts := ts) hf none true _ data Cond.root Cond.root t hts rfl h
  rw [scaled_map hts] at e1
  refine ⟨t', by simpa only [List.length_map] using e1, e2, fun x hx => ?_⟩
  rw [← scaled_typed (f := f) (hts x hx)]
  exact ⟨(e3 x hx).treePredict (scaled_isComposite x) (scaled_possibleLabels x), (e3 x hx).probability⟩

/-- **C224.** The same for bagging and random forests with the same random draws: every tree has the
same shape, tests the same attributes and has the same leaves, and answers the instances of its own
sample as before. -/
theorem C224_forest_scale (data : IList ℝ) (ts : List AttrType) (hts : ∀ x ∈ data, typesOf x = ts)
    (f : Nat → ℝ → ℝ) (hf : ∀ i, StrictMono (f i)) (param : Node.SubsetParam) (draws : Nat → List Nat) (size : Int)
    (forest : List (Node ℝ)) (h : ensembleTrain param draws [] data size = .ok forest) :
    ∃ forest', ensembleTrain param draws [] (data.map (onScale f)) size = .ok forest' ∧
      forest'.map Node.sketch = forest.map Node.sketch ∧
      ∀ (j : Nat) (t t' : Node ℝ), forest[j]? = some t → forest'[j]? = some t' →
        ∀ x ∈ data.bootstrap (draws j), treePredict t' (onScale f x) = treePredict t x := by
  have hboot : ∀ l, ∀ x ∈ data.bootstrap l, typesOf x = ts := by
    intro l x hx
    obtain ⟨j, _, hj⟩ := List.mem_filterMap.1 hx
    exact hts x (List.mem_of_getElem? hj)
  unfold ensembleTrain at h ⊢
  generalize size.toNat = n at h ⊢
  have key : ∀ (n : Nat) (forest : List (Node ℝ)), (List.range n).foldlM (fun forest i => do
        let sample := data.bootstrap (draws i)
        let t ← Node.grow param false (sample.length + 1) sample Cond.root
        pure (forest ++ [t])) [] = .ok forest →
      forest.length = n ∧ ∃ forest', (List.range n).foldlM (fun forest i => do
        let sample := IList.bootstrap (data.map (onScale f)) (draws i)
        let t ← Node.grow param false (sample.length + 1) sample Cond.root
        pure (forest ++ [t])) [] = .ok forest' ∧ forest'.length = n ∧
      forest'.map Node.sketch = forest.map Node.sketch ∧
      ∀ (j : Nat) (t t' : Node ℝ), forest[j]? = some t → forest'[j]? = some t' →
        ∀ x ∈ data.bootstrap (draws j), treePredict t' (onScale f x) = treePredict t x := by
    intro n
    induction n with
    | zero => intro forest h; cases h; exact ⟨rfl, [], rfl, rfl, rfl, by simp⟩
    | succ n ih =>
      intro forest h
      rw [List.range_succ, foldlM_append', bind_ok_iff] at h
      obtain ⟨fo, h1, h⟩ := h
      simp only [List.foldlM_cons, List.foldlM_nil, bind_ok_iff] at h
      obtain ⟨_, ⟨t, ht, h2⟩, h3⟩ := h
      cases h2; cases h3
      obtain ⟨hlen, fo', e1, hlen', e2, e3⟩ := ih fo h1
      obtain ⟨t', g1, g2, g3⟩ := scaled_grow (ts := ts) hf param false _ _ Cond.root Cond.root t (hboot _) rfl ht
      rw [scaled_map (hboot _)] at g1
      have hb : IList.bootstrap (data.map (onScale f)) (draws n) = (data.bootstrap (draws n)).map (onScale f) := by
        unfold IList.bootstrap
        rw [List.map_filterMap]
        congr 1
        funext i
        rw [List.getElem?_map]
      refine ⟨by simp [hlen], fo' ++ [t'], ?_, by simp [hlen'], by simp [e2, g2], ?_⟩
      · rw [List.range_succ, foldlM_append', e1, res_bind_ok, List.foldlM_cons]
        simp only [hb, List.length_map, g1, res_bind_ok, res_pure, List.foldlM_nil]
      · intro j u u' hu hu' x hx
        rcases lt_trichotomy j n with hj | hj | hj
        · rw [List.getElem?_append_left (by omega)] at hu hu'
          exact e3 j u u' hu hu' x hx
        · subst hj
          rw [List.getElem?_append_right (by omega), hlen, Nat.sub_self] at hu
          rw [List.getElem?_append_right (by omega), hlen', Nat.sub_self] at hu'
          cases hu; cases hu'
          have hxt := hboot _ x hx
          rw [← scaled_typed (f := f) hxt]
          exact (g3 x hx).treePredict (scaled_isComposite x) (scaled_possibleLabels x)
        · rw [List.getElem?_eq_none (by simp [hlen]; omega)] at hu
          cases hu
  obtain ⟨_, forest', e1, _, e2, e3⟩ := key n forest h
  exact ⟨forest', e1, e2, e3⟩

/-- cubes in column 0 -/
example : ∃ t t', treeTrain (exOrder ℝ) none = .ok t ∧
    treeTrain ((exOrder ℝ).map (onScale (fun _ v => v ^ 3))) none = .ok t' ∧ t'.sketch = t.sketch := by
  have hts : ∀ x ∈ exOrder ℝ, typesOf x = [.continuous, .discreteIndexed, .discrete] := by
    intro x hx
    simp only [exOrder, List.mem_cons, List.not_mem_nil, or_false] at hx
    rcases hx with rfl | rfl | rfl <;> rfl
  obtain ⟨t, ht, _⟩ := grow_ok (param := none) (by intro _ _ h; cases h) (ts := [.continuous, .discreteIndexed, .discrete])
    rfl false ((exOrder ℝ).length + 1) (exOrder ℝ) Cond.root (by simp [exOrder]) hts (by omega)
  obtain ⟨t', h1, h2, _⟩ := C224_tree_scale (exOrder ℝ) _ hts (fun _ v => v ^ 3)
    (fun _ => Odd.strictMono_pow ⟨1, rfl⟩) t ht
  exact ⟨t, t', ht, h1, h2⟩

/-- one number and a class -/
def numbered (c : String) (v : Rat) : Inst XR := { label := c, attrs := [.continuous (.fin v)] }

/-- **C224.** Only for the training instances: between the training values 0 and 2 the threshold is
1, between their cubes 0 and 8 it is 4. An instance with 3/2 is answered "high", one with its cube
27/8 "low". -/
theorem C224_between_matters :
    (do
      let t ← treeTrain [numbered "low" 0, numbered "high" 2] none
      let t' ← treeTrain [numbered "low" 0, numbered "high" 8] none
      let a ← treePredict t (numbered "" (3 / 2))
      let b ← treePredict t' (numbered "" (27 / 8))
      pure (a, b)) = (.ok ("high", "low") : Res (String × String)) := by
  decide +kernel

end Verif
