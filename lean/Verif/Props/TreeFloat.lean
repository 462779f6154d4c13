import Verif.Props.TreeGrow
import Verif.Lemmas.FloatLog
import Verif.Lemmas.Float53

/-! # Property C168: growing a tree in double precision -/

set_option linter.unusedSectionVars false

namespace Verif
open Dbl
variable {F : Type} [Dbl F]

/-! ## what rounding may spoil -/

/-- the entropy of a list of labels, as computed -/
def labelEntropy (ls : List String) : F := (DD.ofList ls).entropy

/-- the split value computed between two different values of a column is not below the smaller
one and below the larger one -/
def MidpointsBetween (data : IList F) : Prop :=
  ∀ x ∈ data, ∀ y ∈ data, ∀ i, (contValAt x i <. contValAt y i) = true →
    (contValAt x i <=. ((contValAt x i +. contValAt y i) /. Dbl.ofInt 2)) = true ∧
    (((contValAt x i +. contValAt y i) /. Dbl.ofInt 2) <. contValAt y i) = true

/-- dividing by an attribute with a single value does not seem to lower the computed entropy -/
def NoGainDiscrete (F : Type) [Dbl F] (ls : List String) : Prop :=
  ¬ ((Dbl.zero +. (((Dbl.ofNat ls.length : F) /. Dbl.ofNat ls.length) *. labelEntropy ls)) <. labelEntropy ls) = true

/-- dividing by an index that all instances have does not seem to lower the computed entropy -/
def NoGainIndexed (F : Type) [Dbl F] (ls : List String) : Prop :=
  ¬ ((((labelEntropy [] *. (Dbl.ofNat 0 : F)) +. (labelEntropy ls *. Dbl.ofNat ls.length)) /. Dbl.ofNat ls.length) <.
      labelEntropy ls) = true

/-- the two conditions for all groups of instances a node may see -/
structure NoGain (ts : List AttrType) (data : IList F) : Prop where
  discrete : AttrType.discrete ∈ ts → ∀ p : IList F, p ≠ [] → (∀ x ∈ p, x ∈ data) → p.length ≤ data.length →
    NoGainDiscrete F (p.map Inst.label)
  indexed : AttrType.discreteIndexed ∈ ts → ∀ p : IList F, p ≠ [] → (∀ x ∈ p, x ∈ data) → p.length ≤ data.length →
    NoGainIndexed F (p.map Inst.label)

theorem NoGain.mono {ts : List AttrType} {data p : IList F} (h : NoGain ts data) (hp : ∀ x ∈ p, x ∈ data)
    (hl : p.length ≤ data.length) : NoGain ts p :=
  ⟨fun ht q h1 h2 h3 => h.discrete ht q h1 (fun x hx => hp x (h2 x hx)) (by omega),
   fun ht q h1 h2 h3 => h.indexed ht q h1 (fun x hx => hp x (h2 x hx)) (by omega)⟩

/-! ## proper splits -/

/-- the best split so far divides the data into smaller groups -/
def ProperAt (ts : List AttrType) (data : IList F) (b : Node.Best F) (i : Nat) : Prop :=
  (ts[i]? = some .discrete ∧ ∃ x ∈ data, ∃ y ∈ data, discValAt x i ≠ discValAt y i) ∨
  (ts[i]? = some .discreteIndexed ∧ (∃ x ∈ data, idxValAt x i = b.k) ∧ ∃ y ∈ data, idxValAt y i ≠ b.k) ∨
  (ts[i]? = some .continuous ∧ (∃ x ∈ data, (contValAt x i <=. b.v) = true) ∧
    ∃ y ∈ data, (contValAt y i <=. b.v) = false)

/-- no split yet, or a proper one that seems better than none -/
def ProperBest (ts : List AttrType) (data : IList F) (b : Node.Best F) : Prop :=
  (b.attr = none ∧ b.entropy = labelEntropy (data.map Inst.label)) ∨
  ∃ i, b.attr = some i ∧ (b.entropy <. labelEntropy (data.map Inst.label)) = true ∧ ProperAt ts data b i

theorem ProperBest.lt [LawfulOrd F] {ts : List AttrType} {data : IList F} {b : Node.Best F} (h : ProperBest ts data b)
    {e : F} (he : (e <. b.entropy) = true) : (e <. labelEntropy (data.map Inst.label)) = true := by
  rcases h with ⟨_, h⟩ | ⟨i, _, h, _⟩
  · rw [← h]; exact he
  · exact lt_trans' he h

theorem labelEntropy_perm {l l' : List String} (h : l.Perm l') : (labelEntropy l : F) = labelEntropy l' := by
  unfold labelEntropy; rw [DD.ofList_perm h]

/-! ## the search -/

theorem properDiscrete [LawfulOrd F] {ts : List AttrType} {data : IList F} (hne : data ≠ []) (hts : ∀ x ∈ data, typesOf x = ts)
    (hg : NoGain ts data) {s : Node.Search F} {i : Nat} (ht : ts[i]? = some .discrete)
    (hperm : s.data.Perm data) (hb : ProperBest ts data s.best) :
    ∃ b, Node.searchDiscrete s i = .ok { s with best := b } ∧ ProperBest ts data b := by
  have hv : ∀ x ∈ s.data, DiscAt x i (discValAt x i) :=
    fun x hx => .inl (disc_of_type (hts x (hperm.mem_iff.1 hx)) ht)
  have hsne : s.data ≠ [] := by intro h; rw [h] at hperm; exact hne hperm.symm.eq_nil
  have hfo := dedup_first (s.data.map (fun x => discValAt x i))
  have hds : s.data.attributeClassDistribution i = .ok (((s.data.map (fun x => discValAt x i)).foldl pushNew []).map
      (fun a => DD.ofList ((s.data.filter (fun x => discValAt x i == a)).map Inst.label))) := by
    unfold IList.attributeClassDistribution
    rw [valueList_ok hv]
    simp only [res_bind_ok]
    have := table_loop (i := i) hfo.nodup (fun x => discValAt x i) s.data hv (fun x hx => by
      rw [hfo.mem_iff]; exact List.mem_map_of_mem hx) []
    simp only [List.filter_nil, List.map_nil, List.nil_append, List.map_const'] at this
    exact this
  unfold Node.searchDiscrete Node.entropyForDiscreteAttribute
  rw [hds]
  simp only [res_bind_ok, res_pure]
  refine ⟨_, rfl, ?_⟩
  split_ifs with hlt
  · refine .inr ⟨i, rfl, hb.lt hlt, .inl ⟨ht, ?_⟩⟩
    by_contra hc
    push Not at hc
    -- a single value
    obtain ⟨x0, rest, hx0⟩ := List.exists_cons_of_ne_nil hsne
    have hall : ∀ x ∈ s.data, discValAt x i = discValAt x0 i := fun x hx =>
      hc x (hperm.mem_iff.1 hx) x0 (hperm.mem_iff.1 (by rw [hx0]; simp))
    have hvs : (s.data.map (fun x => discValAt x i)).foldl pushNew [] = [discValAt x0 i] := by
      have hmem : ∀ a, a ∈ (s.data.map (fun x => discValAt x i)).foldl pushNew [] ↔ a = discValAt x0 i := by
        intro a
        rw [hfo.mem_iff, List.mem_map]
        constructor
        · rintro ⟨x, hx, rfl⟩; exact hall x hx
        · rintro rfl; exact ⟨x0, by rw [hx0]; simp, rfl⟩
      have hnd := hfo.nodup
      generalize (s.data.map (fun x => discValAt x i)).foldl pushNew [] = vs at hmem hnd
      match vs with
      | [] => exact absurd ((hmem _).2 rfl) (by simp)
      | [a] => rw [(hmem a).1 (by simp)]
      | a :: b :: r =>
        have h1 := (hmem a).1 (by simp)
        have h2 := (hmem b).1 (by simp)
        rw [h1, h2] at hnd; simp at hnd
    rw [hvs] at hlt
    have hfil : s.data.filter (fun x => discValAt x i == discValAt x0 i) = s.data := by
      rw [List.filter_eq_self]; intro x hx; simp [hall x hx]
    have hngd := hg.discrete (List.mem_of_getElem? ht) data hne (fun _ h => h) (le_refl _)
    have hlt' := hb.lt hlt
    simp only [List.map_cons, List.map_nil, List.foldl_cons, List.foldl_nil, hfil] at hlt'
    apply hngd
    have hsum : (DD.ofList (s.data.map Inst.label)).getSum = s.data.length := by simp [DD.getSum, DD.sum_ofList]
    rw [hsum, hperm.length_eq] at hlt'
    rw [List.length_map]
    have hp : (DD.ofList (s.data.map Inst.label)) = DD.ofList (data.map Inst.label) := DD.ofList_perm (hperm.map _)
    rw [hp] at hlt'
    exact hlt'
  · exact hb

theorem indexedDist_gen {ts : List AttrType} {data data0 : IList F} {i k : Nat} (hts : ∀ x ∈ data, typesOf x = ts)
    (ht : ts[i]? = some .discreteIndexed) (hperm : data0.Perm data) :
    data0.discreteIndexedAttributeClassDistribution i k =
      .ok (DD.ofList ((data0.filter (fun x => idxValAt x i == k)).map Inst.label)) := by
  have hv : ∀ x ∈ data0, IndexAt x i (idxValAt x i) :=
    fun x hx => idx_of_type (hts x (hperm.mem_iff.1 hx)) ht
  unfold IList.discreteIndexedAttributeClassDistribution
  rw [foldlM_ok (g := fun d x => if idxValAt x i = (k : Int) then d.addItem x.label else d)]
  · congr 1
    unfold DD.ofList
    rw [List.foldl_map, List.foldl_filter]
    congr 1
    funext d x
    by_cases hx : idxValAt x i = (k : Int) <;> simp [hx]
  · intro x hx s
    rw [indexAt_ok (hv x hx)]; rfl

theorem properIndexedStep [LawfulOrd F] {ts : List AttrType} {data data0 : IList F} (hne : data ≠ [])
    (hts : ∀ x ∈ data, typesOf x = ts) (hg : NoGain ts data) {b : Node.Best F} {i k : Nat}
    (ht : ts[i]? = some .discreteIndexed) (hperm : data0.Perm data) (hb : ProperBest ts data b) :
    ∃ b', Node.indexedStep data0 i (DD.ofList (data.map Inst.label), b) k =
        .ok (DD.ofList (data.map Inst.label), b') ∧ ProperBest ts data b' := by
  have hd := indexedDist_gen (k := k) hts ht hperm
  unfold Node.indexedStep
  rw [hd]
  simp only [res_bind_ok, res_pure]
  set A := data0.filter (fun x => idxValAt x i == k) with hA
  set B := data0.filter (fun x => !(idxValAt x i == k)) with hB
  have hAB : data.Perm (A ++ B) := hperm.symm.trans (List.filter_append_perm _ data0).symm
  have hABl : (data.map Inst.label).Perm (A.map Inst.label ++ B.map Inst.label) := by
    rw [← List.map_append]; exact hAB.map _
  rw [DD.removeDistribution_ofList hABl, DD.addDistribution_ofList hABl]
  have hsumA : (DD.ofList (A.map Inst.label)).getSum = A.length := by simp [DD.getSum, DD.sum_ofList]
  have hsumB : (DD.ofList (B.map Inst.label)).getSum = B.length := by simp [DD.getSum, DD.sum_ofList]
  rw [hsumA, hsumB]
  by_cases hpos : A.length > 0
  · rw [if_pos hpos]
    refine ⟨_, rfl, ?_⟩
    split_ifs with hlt
    · refine .inr ⟨i, rfl, hb.lt hlt, .inr (.inl ⟨ht, ?_, ?_⟩)⟩
      · obtain ⟨x, hx⟩ := List.exists_mem_of_length_pos hpos
        refine ⟨x, hAB.mem_iff.2 (by simp [hx]), ?_⟩
        rw [hA, List.mem_filter] at hx; simpa using hx.2
      · by_contra hc
        push Not at hc
        have hBn : B = [] := by
          rw [hB, List.filter_eq_nil_iff]
          intro x hx
          simpa using hc x (hperm.mem_iff.1 hx)
        have hAd : data.Perm A := by simpa [hBn] using hAB
        have hlt' := hb.lt hlt
        have hng := hg.indexed (List.mem_of_getElem? ht) data hne (fun _ h => h) (le_refl _)
        apply hng
        rw [hBn] at hlt'
        have hp : (DD.ofList (A.map Inst.label)) = DD.ofList (data.map Inst.label) := DD.ofList_perm (hAd.symm.map _)
        rw [hp, hperm.length_eq, ← hAd.length_eq] at hlt'
        rw [List.length_map]
        exact hlt'
    · exact hb
  · rw [if_neg hpos]
    exact ⟨_, rfl, hb⟩

theorem properIndexed [LawfulOrd F] {ts : List AttrType} {data : IList F} (hne : data ≠ [])
    (hts : ∀ x ∈ data, typesOf x = ts) (hg : NoGain ts data) {s : Node.Search F} {i : Nat} {m : Int}
    (ht : ts[i]? = some .discreteIndexed) (hperm : s.data.Perm data)
    (hcd : s.classDist = DD.ofList (data.map Inst.label)) (hb : ProperBest ts data s.best) :
    ∃ b, Node.searchIndexed s i m = .ok { s with best := b } ∧ ProperBest ts data b := by
  have key : ∀ (ks : List Nat) (b0 : Node.Best F), ProperBest ts data b0 →
      ∃ b, ks.foldlM (Node.indexedStep s.data i) (DD.ofList (data.map Inst.label), b0) =
        .ok (DD.ofList (data.map Inst.label), b) ∧ ProperBest ts data b := by
    intro ks
    induction ks with
    | nil => intro b0 h0; exact ⟨b0, rfl, h0⟩
    | cons k ks ih =>
      intro b0 h0
      obtain ⟨b1, e1, h1⟩ := properIndexedStep (k := k) hne hts hg ht hperm h0
      obtain ⟨b2, e2, h2⟩ := ih b1 h1
      exact ⟨b2, by rw [List.foldlM_cons, e1]; exact e2, h2⟩
  obtain ⟨b, e, h⟩ := key (List.range m.toNat) s.best hb
  refine ⟨b, ?_, h⟩
  unfold Node.searchIndexed
  rw [hcd, e]
  simp only [res_bind_ok, res_pure, ← hcd]

theorem properSweep [LawfulOrd F] {ts : List AttrType} {data : IList F} (hm : MidpointsBetween data) {i n : Nat}
    (ht : ts[i]? = some .continuous) :
    ∀ (suf : IList F) (s : Node.Sweep F), (∀ x ∈ suf, x ∈ data) →
    suf.Pairwise (fun a b => (contValAt a i <=. contValAt b i) = true) →
    (∀ x ∈ suf, ContAt x i (contValAt x i)) →
    (∀ p, s.prev = some p → ∃ z ∈ data, p = contValAt z i ∧ ∀ x ∈ suf, (p <=. contValAt x i) = true) →
    ProperBest ts data s.best →
    ∃ s', suf.foldlM (Node.sweepStep n i) s = .ok s' ∧ ProperBest ts data s'.best := by
  intro suf
  induction suf with
  | nil => intro s _ _ _ _ hb; exact ⟨s, rfl, hb⟩
  | cons x suf ih =>
    intro s hin hsort hcont hprev hb
    rw [List.foldlM_cons]
    have hx := hcont x (by simp)
    have hxd := hin x (by simp)
    have hval : ∃ b p', Node.sweepValue n i s (contValAt x i) = { s with prev := some p', best := b } ∧
        ProperBest ts data b ∧ ∃ z ∈ data, p' = contValAt z i ∧ ∀ w ∈ suf, (p' <=. contValAt w i) = true := by
      unfold Node.sweepValue
      cases hp : s.prev with
      | none => exact ⟨s.best, _, rfl, hb, x, hxd, rfl, (List.pairwise_cons.1 hsort).1⟩
      | some p =>
        obtain ⟨z, hz, hpz, hle⟩ := hprev p hp
        simp only [Node.sweepSplit]
        by_cases heq : (contValAt x i ==. p) = false
        · rw [if_pos heq]
          refine ⟨_, _, rfl, ?_, x, hxd, rfl, (List.pairwise_cons.1 hsort).1⟩
          split_ifs with hlt
          · have h1 := hle x (by simp)
            have h2 : ¬ (contValAt x i <=. p) = true := by
              intro h
              have := (LawfulOrd.eq_iff _ _).2 ⟨h, h1⟩
              rw [heq] at this; cases this
            have h3 : (p <. contValAt x i) = true := (LawfulOrd.lt_iff _ _).2 ⟨h1, h2⟩
            rw [hpz] at h3
            obtain ⟨m1, m2⟩ := hm z hz x hxd i h3
            refine .inr ⟨i, rfl, hb.lt hlt, .inr (.inr ⟨ht, ⟨z, hz, ?_⟩, ⟨x, hxd, ?_⟩⟩)⟩
            · simpa only [hpz] using m1
            · rw [hpz]
              exact Bool.eq_false_iff.2 ((LawfulOrd.lt_iff _ _).1 m2).2
          · exact hb
        · rw [if_neg heq]
          exact ⟨s.best, p, by rw [← hp], hb, z, hz, hpz, fun w hw => hle w (by simp [hw])⟩
    obtain ⟨b, p', hsv, hbv, z, hz, hpz, hle⟩ := hval
    have hstep : Node.sweepStep n i s x = .ok ⟨some p', s.left.removeItem x.label,
        s.right.addItem x.label, b⟩ := by
      unfold Node.sweepStep
      rw [contAt_ok hx]
      simp only [res_bind_ok, hsv]
      rfl
    rw [hstep]
    simp only [res_bind_ok]
    apply ih
    · intro y hy; exact hin y (by simp [hy])
    · exact (List.pairwise_cons.1 hsort).2
    · intro y hy; exact hcont y (by simp [hy])
    · intro p hp; cases hp; exact ⟨z, hz, hpz, hle⟩
    · exact hbv

theorem properContinuous [LawfulOrd F] {ts : List AttrType} {data : IList F} (hts : ∀ x ∈ data, typesOf x = ts)
    (hm : MidpointsBetween data) {s : Node.Search F} {i : Nat} (ht : ts[i]? = some .continuous)
    (hord : ∀ x ∈ data, Dbl.Ord (contValAt x i))
    (hperm : s.data.Perm data) (hb : ProperBest ts data s.best) :
    ∃ d b, Node.searchContinuous s i = .ok { s with data := d, best := b } ∧ d.Perm data ∧
      ProperBest ts data b := by
  have hv : ∀ x ∈ s.data, ContAt x i (contValAt x i) :=
    fun x hx => cont_of_type (hts x (hperm.mem_iff.1 hx)) ht
  obtain ⟨d, hd, hst⟩ := C13_sort_by_attribute s.data i _ hv (fun x hx => hord x (hperm.mem_iff.1 hx))
  have hdp : d.Perm data := hst.perm.trans hperm
  obtain ⟨s', e, h⟩ := properSweep (n := d.length) hm ht d ⟨none, d.classDistribution, DD.empty, s.best⟩
    (fun x hx => hdp.mem_iff.1 hx) hst.sorted (fun x hx => hv x (hst.perm.mem_iff.1 hx))
    (by intro p hp; cases hp) hb
  refine ⟨d, s'.best, ?_, hdp, h⟩
  unfold Node.searchContinuous
  rw [hd]
  simp only [res_bind_ok]
  rw [e]
  rfl

/-- state of the search -/
structure ProperSearch (ts : List AttrType) (data : IList F) (s : Node.Search F) : Prop where
  perm : s.data.Perm data
  dist : s.classDist = DD.ofList (data.map Inst.label)
  best : ProperBest ts data s.best

/-- the values of continuous attributes are no NaN -/
def NoNaN (data : IList F) : Prop :=
  ∀ x ∈ data, ∀ (i : Nat) v, x.attrs[i]? = some (.continuous v) → Dbl.Ord v

theorem properStep [LawfulOrd F] {ts : List AttrType} {data : IList F} (hne : data ≠ [])
    (hts : ∀ x ∈ data, typesOf x = ts) (hg : NoGain ts data) (hm : MidpointsBetween data) (hnan : NoNaN data)
    {s : Node.Search F} {i : Nat} (hs : ProperSearch ts data s) (hi : i < ts.length) :
    ∃ s', Node.searchStep s i = .ok s' ∧ ProperSearch ts data s' := by
  have hsne : s.data ≠ [] := by intro h; have := hs.perm; rw [h] at this; exact hne this.symm.eq_nil
  obtain ⟨x0, rest, hx0⟩ := List.exists_cons_of_ne_nil hsne
  have hx0d : x0 ∈ data := hs.perm.mem_iff.1 (by rw [hx0]; simp)
  have hlen : i < x0.attrs.length := by
    have := hts x0 hx0d
    rw [← this, typesOf, List.length_map] at hi; exact hi
  obtain ⟨a, ha⟩ : ∃ a, x0.getAttribute i = .ok a := ⟨_, by
    unfold Inst.getAttribute; exact atR_ok_of_lt hlen⟩
  have hta := type_of_attr (hts x0 hx0d) ha
  have hstep : Node.searchStep s i = Node.searchKind s i a := by
    unfold Node.searchStep
    rw [hx0]
    simp only [atR_cons_zero, res_bind_ok, ha]
  rw [hstep]
  unfold Node.searchKind
  cases a with
  | indexed v j m =>
    simp only [Attr.isDiscreteIndexed, if_true, Attr.getMaxIndex, res_bind_ok]
    obtain ⟨b, e, h⟩ := properIndexed (m := m) hne hts hg hta hs.perm hs.dist hs.best
    exact ⟨_, e, hs.perm, hs.dist, h⟩
  | discrete v =>
    simp only [Attr.isDiscreteIndexed, Attr.isDiscrete, Bool.false_eq_true, if_false, if_true]
    obtain ⟨b, e, h⟩ := properDiscrete hne hts hg hta hs.perm hs.best
    exact ⟨_, e, hs.perm, hs.dist, h⟩
  | continuous v =>
    simp only [Attr.isDiscreteIndexed, Attr.isDiscrete, Attr.isContinuous, Bool.false_eq_true, if_false, if_true]
    obtain ⟨d, b, e, hd, h⟩ := properContinuous hts hm hta (fun x hx => by
      have := cont_of_type (hts x hx) hta
      exact hnan x hx i _ this) hs.perm hs.best
    exact ⟨_, e, hd, hs.dist, h⟩
  | binary v =>
    simp only [Attr.isDiscreteIndexed, Attr.isDiscrete, Attr.isContinuous, Bool.false_eq_true, if_false]
    exact ⟨_, rfl, hs⟩

theorem properSearch_all [LawfulOrd F] {ts : List AttrType} {data : IList F} (hne : data ≠ [])
    (hts : ∀ x ∈ data, typesOf x = ts) (hg : NoGain ts data) (hm : MidpointsBetween data) (hnan : NoNaN data) :
    ∀ (is : List Nat) (s : Node.Search F), ProperSearch ts data s → (∀ i ∈ is, i < ts.length) →
    ∃ s', is.foldlM Node.searchStep s = .ok s' ∧ ProperSearch ts data s' := by
  intro is
  induction is with
  | nil => intro s hs _; exact ⟨s, rfl, hs⟩
  | cons i is ih =>
    intro s hs hi
    obtain ⟨s1, e1, h1⟩ := properStep hne hts hg hm hnan hs (hi i (by simp))
    obtain ⟨s2, e2, h2⟩ := ih s1 h1 (fun j hj => hi j (by simp [hj]))
    exact ⟨s2, by rw [List.foldlM_cons, e1]; exact e2, h2⟩

/-! ## the children -/

theorem properChildren {ts : List AttrType} {data sd : IList F} (hts : ∀ x ∈ data, typesOf x = ts)
    (hperm : sd.Perm data) {rec : IList F → Cond F → Res (Node F)}
    (hrec : ∀ p c, p ≠ [] → p.length < data.length → (∀ x ∈ p, x ∈ data) → ∃ n, rec p c = .ok n)
    {b : Node.Best F} {i : Nat} (hpr : ProperAt ts data b i) {a : Attr F} (ha : ts[i]? = some (typeOf a)) :
    ∃ ch, Node.childrenKind rec sd b i a = .ok ch := by
  have hts' : ∀ x ∈ sd, typesOf x = ts := fun x hx => hts x (hperm.mem_iff.1 hx)
  have hin : ∀ (f : Inst F → Bool), ∀ x ∈ sd.filter f, x ∈ data :=
    fun f x hx => hperm.mem_iff.1 (List.mem_of_mem_filter hx)
  have hgood : ∀ (f : Inst F → Bool), (∃ x ∈ data, f x = true) → (∃ x ∈ data, f x = false) → ∀ c,
      ∃ n, rec (sd.filter f) c = .ok n := by
    rintro f ⟨x, hx, hfx⟩ ⟨y, hy, hfy⟩ c
    refine hrec _ c ?_ ?_ (hin f)
    · exact List.ne_nil_of_mem (List.mem_filter.2 ⟨hperm.mem_iff.2 hx, hfx⟩)
    · rw [← hperm.length_eq]; exact filter_length_lt (hperm.mem_iff.2 hy) hfy
  unfold Node.childrenKind
  rcases hpr with ⟨hty, x, hx, y, hy, hxy⟩ | ⟨hty, ⟨x, hx, hxk⟩, ⟨y, hy, hyk⟩⟩ | ⟨hty, ⟨x, hx, hxv⟩, ⟨y, hy, hyv⟩⟩
  · have hat : typeOf a = .discrete := by have := ha.symm.trans hty; simpa using this
    cases a with
    | discrete v =>
      simp only [Attr.isDiscreteIndexed, Attr.isDiscrete, Bool.false_eq_true, if_false, if_true]
      have hv' : ∀ x ∈ sd, DiscAt x i (discValAt x i) := fun x hx => .inl (disc_of_type (hts' x hx) hty)
      obtain ⟨vs, ps, hfo, e, hps, _, _⟩ := C21_partition_by_discrete sd i _ hv'
      obtain ⟨vs', e', hfo'⟩ := C09_attribute_values sd i _ hv'
      have hvs : vs' = vs := hfo'.unique hfo
      subst hvs
      unfold Node.childrenDiscrete
      rw [e', e]
      simp only [res_bind_ok]
      apply mapM_exists
      rintro ⟨w, k⟩ hwk
      obtain ⟨hk, hw⟩ := List.mem_zipIdx' hwk
      have hwm : w ∈ vs' := by rw [hw]; exact List.getElem_mem hk
      unfold Node.childDiscrete
      simp only
      rw [atR_ok_of_lt (by rw [hps]; simpa using hk)]
      simp only [res_bind_ok, hps, List.getElem_map, ← hw]
      apply hgood
      · obtain ⟨z, hz, hzw⟩ := List.mem_map.1 ((hfo.mem_iff w).1 hwm)
        exact ⟨z, hperm.mem_iff.1 hz, by simpa using hzw⟩
      · by_cases hxw : discValAt x i = w
        · exact ⟨y, hy, by simpa [← hxw] using fun h => hxy h.symm⟩
        · exact ⟨x, hx, by simpa using hxw⟩
    | indexed _ _ _ => simp [typeOf] at hat
    | continuous _ => simp [typeOf] at hat
    | binary _ => simp [typeOf] at hat
  · have hat : typeOf a = .discreteIndexed := by have := ha.symm.trans hty; simpa using this
    cases a with
    | indexed v kk m =>
      simp only [Attr.isDiscreteIndexed, if_true, Attr.getMaxIndex, res_bind_ok]
      have hv : ∀ x ∈ sd, IndexAt x i (idxValAt x i) := fun x hx => idx_of_type (hts' x hx) hty
      obtain ⟨p0, p1, e, h0, h1, _⟩ := C22_partition_by_indexed sd i b.k _ hv
      obtain ⟨c0, hc0⟩ := hgood (fun x => decide (idxValAt x i = b.k)) ⟨x, hx, by simpa using hxk⟩ ⟨y, hy, by simpa using hyk⟩
        ⟨i, '=', some (.indexed "" b.k m)⟩
      obtain ⟨c1, hc1⟩ := hgood (fun x => decide (idxValAt x i ≠ b.k)) ⟨y, hy, by simpa using hyk⟩ ⟨x, hx, by simpa using hxk⟩
        ⟨i, '=', some (.indexed "" (-1) m)⟩
      rw [← h0] at hc0
      rw [← h1] at hc1
      refine ⟨[c0, c1], ?_⟩
      unfold Node.childrenIndexed
      rw [e]
      simp only [res_bind_ok, atR_cons_zero, hc0]
      rw [show atR [p0, p1] 1 = .ok p1 from rfl]
      simp only [res_bind_ok, hc1]
      rfl
    | discrete _ => simp [typeOf] at hat
    | continuous _ => simp [typeOf] at hat
    | binary _ => simp [typeOf] at hat
  · have hat : typeOf a = .continuous := by have := ha.symm.trans hty; simpa using this
    cases a with
    | continuous v =>
      simp only [Attr.isDiscreteIndexed, Attr.isDiscrete, Attr.isContinuous, Bool.false_eq_true,
        if_false, if_true]
      have hv : ∀ x ∈ sd, ContAt x i (contValAt x i) := fun x hx => cont_of_type (hts' x hx) hty
      obtain ⟨p0, p1, e, h0, h1, _⟩ := C23_partition_by_threshold sd i b.v _ hv
      obtain ⟨c0, hc0⟩ := hgood (fun x => contValAt x i <=. b.v) ⟨x, hx, hxv⟩ ⟨y, hy, hyv⟩ ⟨i, '<', some (.continuous b.v)⟩
      obtain ⟨c1, hc1⟩ := hgood (fun x => !(contValAt x i <=. b.v)) ⟨y, hy, by simp [hyv]⟩ ⟨x, hx, by simp [hxv]⟩
        ⟨i, '>', some (.continuous b.v)⟩
      rw [← h0] at hc0
      rw [← h1] at hc1
      refine ⟨[c0, c1], ?_⟩
      unfold Node.childrenContinuous
      rw [e]
      simp only [res_bind_ok, atR_cons_zero, hc0]
      rw [show atR [p0, p1] 1 = .ok p1 from rfl]
      simp only [res_bind_ok, hc1]
      rfl
    | discrete _ => simp [typeOf] at hat
    | indexed _ _ _ => simp [typeOf] at hat
    | binary _ => simp [typeOf] at hat

/-! ## the whole tree -/

/-- **C168 (part), for every arithmetic with an order**: if the computed split values lie between
their neighbours and no division that leaves the data together seems to lower the computed
entropy, then growing a tree, a stump or a random-forest tree returns; the recursion is never
deeper than the number of instances. -/
theorem C168_growth_partial [LawfulOrd F] {param : Node.SubsetParam} (hp : ValidParam param) (st : Bool)
    {ts : List AttrType} : ∀ (fuel : Nat) (data : IList F) (c : Cond F), data ≠ [] →
    (∀ x ∈ data, typesOf x = ts) → NoNaN data → MidpointsBetween data → NoGain ts data →
    data.length ≤ fuel → ∃ n, Node.grow param st fuel data c = .ok n := by
  intro fuel
  induction fuel with
  | zero => intro data c hne _ _ _ _ hl; exact absurd (List.length_eq_zero_iff.1 (by omega)) hne
  | succ fuel ih =>
    intro data c hne hts hnan hm hg hl
    rw [Node.grow]
    simp only [getClassLabels_eq]
    by_cases hdist : data.getDistinctClassLabels.length = 1
    · rw [if_pos hdist]; exact ⟨_, rfl⟩
    rw [if_neg hdist]
    by_cases hst : st = true ∧ c.attr ≠ -1
    · rw [if_pos hst]; exact ⟨_, rfl⟩
    rw [if_neg hst]
    unfold Node.splitNode
    obtain ⟨x0, rest, hx0⟩ := List.exists_cons_of_ne_nil hne
    have hx0d : x0 ∈ data := by rw [hx0]; simp
    have hsz : x0.attributeSize = ts.length := by
      rw [← hts x0 hx0d]; simp [typesOf, Inst.attributeSize]
    have hat0 : atR data 0 = .ok x0 := by rw [hx0]; rfl
    obtain ⟨tried, htr⟩ := triedIndices_ok hp ts.length
    rw [hat0]
    simp only [res_bind_ok, hsz, htr]
    have hlt : ∀ i ∈ tried, i < ts.length := triedIndices_lt hp htr
    have hs0 : ProperSearch ts data (⟨data, data.classDistribution,
        ⟨data.classDistribution.entropy, none, 0, Dbl.zero⟩⟩ : Node.Search F) :=
      ⟨List.Perm.refl _, classDistribution_eq _, .inl ⟨rfl, by simp only; rw [classDistribution_eq]; rfl⟩⟩
    obtain ⟨s, hs, hok⟩ := properSearch_all hne hts hg hm hnan tried _ hs0 hlt
    rw [hs]
    simp only [res_bind_ok]
    unfold Node.finish
    rcases hok.best with ⟨hnone, _⟩ | ⟨i, hi, _, hpr⟩
    · rw [hnone]; exact ⟨_, rfl⟩
    · rw [hi]
      simp only
      have hsne : s.data ≠ [] := by
        intro h; have := hok.perm; rw [h] at this; exact hne this.symm.eq_nil
      obtain ⟨y0, rest', hy0⟩ := List.exists_cons_of_ne_nil hsne
      have hy0d : y0 ∈ data := hok.perm.mem_iff.1 (by rw [hy0]; simp)
      have haty : atR s.data 0 = .ok y0 := by rw [hy0]; rfl
      have hilt : i < ts.length := by
        rcases hpr with h | h | h <;> exact (List.getElem?_eq_some_iff.1 h.1).1
      have hylen : i < y0.attrs.length := by
        have h2 := hts y0 hy0d
        rw [← h2, typesOf, List.length_map] at hilt; exact hilt
      have hga : y0.getAttribute i = .ok y0.attrs[i] := atR_ok_of_lt hylen
      rw [haty]
      simp only [res_bind_ok, hga]
      obtain ⟨ch, hch⟩ := properChildren hts hok.perm (rec := Node.grow param st fuel) (fun p c' h1 h2 h3 =>
        ih p c' h1 (fun x hx => hts x (h3 x hx)) (fun x hx => hnan x (h3 x hx))
          (fun x hx y hy => hm x (h3 x hx) y (h3 y hy)) (hg.mono h3 (by omega)) (by omega)) hpr
        (type_of_attr (hts y0 hy0d) hga)
      rw [hch]
      exact ⟨_, rfl⟩

/-! ## double precision: what holds -/

namespace D53
variable {L : CMath}

/-- in double precision an attribute with a single value never seems to help -/
theorem noGainDiscrete (ls : List String) (h : ls ≠ []) : NoGainDiscrete (D53 L) ls := by
  unfold NoGainDiscrete
  rw [zero_add, div_self (List.length_pos_of_ne_nil h), one_mul]
  intro hlt
  exact ((LawfulOrd.lt_iff _ _).1 hlt).2 ((LawfulOrd.lt_iff _ _).1 hlt).1

/-- the split value computed between two finite numbers that are no neighbours lies between them -/
theorem midpoint {a b p : D53 L} {qa qb : ℚ} (ha : a.val = .fin qa) (hb : b.val = .fin qb)
    (h1 : (a <. p) = true) (h2 : (p <. b) = true) :
    (a <=. ((a +. b) /. Dbl.ofInt 2)) = true ∧ (((a +. b) /. Dbl.ofInt 2) <. b) = true := by
  obtain ⟨qp, hp⟩ : ∃ qp, p.val = .fin qp := by
    have h1' : XR.lt a.val p.val = true := h1
    have h2' : XR.lt p.val b.val = true := h2
    rw [ha] at h1'
    rw [hb] at h2'
    cases hpv : p.val <;> rw [hpv] at h1' h2' <;> simp_all [XR.lt]
  have h1' : qa < qp := by
    have : XR.lt a.val p.val = true := h1
    rw [ha, hp] at this; simpa [XR.lt] using this
  have h2' : qp < qb := by
    have : XR.lt p.val b.val = true := h2
    rw [hp, hb] at this; simpa [XR.lt] using this
  have ra := fin_rep ha
  have rb := fin_rep hb
  have rp := fin_rep hp
  set s := rnd (qa + qb) with hs
  have hrs : Rep s := rnd_rep _
  have hs1 : 2 * qa ≤ s := le_rnd_of_le ra.two_mul (by linarith)
  have hs2 : s < 2 * qb := by
    by_contra hc
    push Not at hc
    have hn := rnd_nearest (qa + qb) rp.two_mul
    rw [← hs, abs_of_nonneg (by linarith)] at hn
    rcases abs_cases (2 * qp - (qa + qb)) with ⟨e, _⟩ | ⟨e, _⟩ <;> rw [e] at hn <;> linarith
  have h2v : rnd 2 = 2 := rnd_of_rep (by have := rep_int (n := 2) (by norm_num); simpa using this)
  have hv : ((a +. b) /. Dbl.ofInt 2).val = .fin (s / 2) := by
    show XR.rnd (XR.div (XR.rnd (XR.add a.val b.val)) (XR.rnd (.fin ((2 : ℤ) : ℚ)))) = _
    rw [ha, hb]
    simp only [XR.add, XR.rnd, Int.cast_ofNat, h2v, XR.div]
    rw [if_neg (by norm_num)]
    simp only [← hs]
    rw [rnd_of_rep hrs.half]
  constructor
  · show XR.le a.val _ = true
    rw [ha, hv]; simp only [XR.le, decide_eq_true_eq]; linarith
  · show XR.lt _ b.val = true
    rw [hb, hv]; simp only [XR.lt, decide_eq_true_eq]; linarith

end D53

theorem cont_of_lt [LawfulOrd F] {x y : Inst F} (hty : typesOf x = typesOf y) {i : Nat}
    (hlt : (contValAt x i <. contValAt y i) = true) :
    ∃ v w, x.attrs[i]? = some (.continuous v) ∧ y.attrs[i]? = some (.continuous w) := by
  by_cases hc : (typesOf x)[i]? = some .continuous
  · exact ⟨_, _, cont_of_type rfl hc, cont_of_type hty.symm hc⟩
  · exfalso
    have hz : ∀ z : Inst F, typesOf z = typesOf x → contValAt z i = Dbl.zero := by
      intro z hz
      rw [typesOf_get hz] at hc
      unfold contValAt
      cases ha : z.attrs[i]? with
      | none => rfl
      | some a => rw [ha] at hc; cases a <;> simp_all [typeOf]
    rw [hz x rfl, hz y hty.symm] at hlt
    exact ((LawfulOrd.lt_iff _ _).1 hlt).2 ((LawfulOrd.lt_iff _ _).1 hlt).1

/-- the values of continuous attributes are finite, and between two different values of a column
lies another `double` -/
structure Spread {L : CMath} (data : IList (D53 L)) : Prop where
  fin : ∀ x ∈ data, ∀ (i : Nat) v, x.attrs[i]? = some (.continuous v) → ∃ q, v.val = .fin q
  gap : ∀ x ∈ data, ∀ y ∈ data, ∀ (i : Nat) v w, x.attrs[i]? = some (.continuous v) →
    y.attrs[i]? = some (.continuous w) → (v <. w) = true → ∃ p : D53 L, (v <. p) = true ∧ (p <. w) = true

/-- **C168 (part).** In double precision, with any library of functions: growing a tree, a stump or
a random-forest tree returns when the values of the continuous attributes are finite and no two
different values of a column are neighbouring numbers, and either there is no indexed attribute
or no division by an index that all instances have seems to lower the computed entropy. -/
theorem C168_double_partial {L : CMath} {param : Node.SubsetParam} (hp : ValidParam param) (st : Bool)
    {ts : List AttrType} {data : IList (D53 L)} (hne : data ≠ []) (hts : ∀ x ∈ data, typesOf x = ts)
    (hsp : Spread data)
    (hidx : AttrType.discreteIndexed ∈ ts → ∀ p : IList (D53 L), p ≠ [] → (∀ x ∈ p, x ∈ data) →
      p.length ≤ data.length → NoGainIndexed (D53 L) (p.map Inst.label))
    (c : Cond (D53 L)) {fuel : Nat} (hfuel : data.length ≤ fuel) :
    ∃ n, Node.grow param st fuel data c = .ok n := by
  refine C168_growth_partial hp st fuel data c hne hts ?_ ?_ ⟨?_, hidx⟩ hfuel
  · intro x hx i v hv
    obtain ⟨q, hq⟩ := hsp.fin x hx i v hv
    show XR.le v.val v.val = true
    rw [hq]; simp [XR.le]
  · intro x hx y hy i hlt
    obtain ⟨v, w, hv, hw⟩ := cont_of_lt ((hts x hx).trans (hts y hy).symm) hlt
    have hxv : contValAt x i = v := by unfold contValAt; rw [hv]
    have hyw : contValAt y i = w := by unfold contValAt; rw [hw]
    rw [hxv, hyw] at hlt ⊢
    obtain ⟨p, h1, h2⟩ := hsp.gap x hx y hy i v w hv hw hlt
    obtain ⟨qa, hqa⟩ := hsp.fin x hx i v hv
    obtain ⟨qb, hqb⟩ := hsp.fin y hy i w hw
    exact D53.midpoint hqa hqb h1 h2
  · intro _ p hpne _ _
    exact D53.noGainDiscrete _ (by simpa using hpne)

/-! ## double precision: what fails -/

/-- if every node that sees `data` hands all of it to a child first, growing never returns -/
theorem never_returns {data : IList F} (hdist : data.getDistinctClassLabels.length ≠ 1)
    (h : ∀ (rec : IList F → Cond F → Res (Node F)) mk, (∀ c, ∃ e, rec data c = .error e) →
      ∃ e, Node.splitNode rec none mk data = .error e) :
    ∀ (fuel : Nat) (c : Cond F), ∃ e, Node.grow none false fuel data c = .error e := by
  intro fuel
  induction fuel with
  | zero => intro c; exact ⟨_, rfl⟩
  | succ fuel ih =>
    intro c
    rw [Node.grow]
    simp only [if_neg hdist]
    rw [if_neg (by simp)]
    exact h _ _ ih

/-- one indexed column with a single value: if dividing by that value seems to lower the computed
entropy, growing never returns -/
theorem constant_index_loops {data : IList F} (hne : data ≠ []) (hdist : data.getDistinctClassLabels.length ≠ 1)
    {w : String} (hall : ∀ x ∈ data, x.attrs = [.indexed w 0 1])
    (hgain : ¬ NoGainIndexed F (data.map Inst.label)) :
    ∀ (fuel : Nat) (c : Cond F), ∃ e, Node.grow none false fuel data c = .error e := by
  apply never_returns hdist
  intro rec mk hrec
  obtain ⟨x0, rest, hx0⟩ := List.exists_cons_of_ne_nil hne
  have hx0a := hall x0 (by rw [hx0]; simp)
  have hat0 : atR data 0 = .ok x0 := by rw [hx0]; rfl
  have hidx : ∀ x ∈ data, IndexAt x 0 0 := by
    intro x hx; exact ⟨w, 1, by rw [hall x hx]; rfl⟩
  have hts : ∀ x ∈ data, typesOf x = [.discreteIndexed] := by
    intro x hx; unfold typesOf; rw [hall x hx]; rfl
  have hval : ∀ x ∈ data, idxValAt x 0 = 0 := by
    intro x hx; unfold idxValAt; rw [hall x hx]; rfl
  have hd := indexedDist_gen (i := 0) (k := 0) hts rfl (List.Perm.refl data)
  have hfil : data.filter (fun x => idxValAt x 0 == ((0 : Nat) : Int)) = data := by
    rw [List.filter_eq_self]; intro x hx; simp [hval x hx]
  rw [hfil] at hd
  have hga : x0.getAttribute 0 = .ok (.indexed w 0 1) := by
    unfold Inst.getAttribute; rw [hx0a]; rfl
  have hABl : (data.map Inst.label).Perm (data.map Inst.label ++ []) := by simp
  have hstep : Node.indexedStep data 0 (DD.ofList (data.map Inst.label),
      (⟨labelEntropy (data.map Inst.label), none, 0, Dbl.zero⟩ : Node.Best F)) 0 = .ok (DD.ofList (data.map Inst.label),
      ⟨(((labelEntropy [] *. (Dbl.ofNat 0 : F)) +. (labelEntropy (data.map Inst.label) *. Dbl.ofNat data.length)) /.
        Dbl.ofNat data.length), some 0, 0, Dbl.zero⟩) := by
    unfold Node.indexedStep
    rw [hd]
    simp only [res_bind_ok, res_pure]
    rw [DD.removeDistribution_ofList hABl, DD.addDistribution_ofList hABl]
    have hsum : (DD.ofList (data.map Inst.label)).getSum = data.length := by simp [DD.getSum, DD.sum_ofList]
    have hsum0 : (DD.ofList []).getSum = 0 := rfl
    rw [hsum, hsum0, if_pos (List.length_pos_of_ne_nil hne)]
    unfold NoGainIndexed at hgain
    rw [not_not, List.length_map] at hgain
    rw [if_pos (by exact hgain)]
    rfl
  have hsearch : ([0] : List Nat).foldlM Node.searchStep (⟨data, data.classDistribution,
      ⟨data.classDistribution.entropy, none, 0, Dbl.zero⟩⟩ : Node.Search F) =
      .ok ⟨data, DD.ofList (data.map Inst.label),
      ⟨(((labelEntropy [] *. (Dbl.ofNat 0 : F)) +. (labelEntropy (data.map Inst.label) *. Dbl.ofNat data.length)) /.
        Dbl.ofNat data.length), some 0, 0, Dbl.zero⟩⟩ := by
    rw [List.foldlM_cons]
    unfold Node.searchStep Node.searchKind Node.searchIndexed
    simp only [hat0, res_bind_ok, hga, Attr.isDiscreteIndexed, if_true, Attr.getMaxIndex]
    rw [classDistribution_eq]
    rw [show (DD.ofList (data.map Inst.label)).entropy = (labelEntropy (data.map Inst.label) : F) from rfl]
    rw [show List.range (1 : Int).toNat = [0] from rfl, List.foldlM_cons, hstep]
    rfl
  unfold Node.splitNode
  rw [hat0]
  simp only [res_bind_ok]
  rw [show x0.attributeSize = 1 by unfold Inst.attributeSize; rw [hx0a]; rfl]
  rw [show Node.triedIndices none 1 = .ok [0] from rfl]
  simp only [res_bind_ok]
  rw [hsearch]
  simp only [res_bind_ok]
  unfold Node.finish
  simp only [hat0, res_bind_ok, hga]
  unfold Node.childrenKind
  simp only [Attr.isDiscreteIndexed, if_true, Attr.getMaxIndex, res_bind_ok]
  unfold Node.childrenIndexed
  obtain ⟨p0, p1, e, h0, _, _⟩ := C22_partition_by_indexed data 0 0 (fun _ => 0) hidx
  have hp0 : p0 = data := by rw [h0]; simp
  rw [e, hp0]
  simp only [res_bind_ok, atR_cons_zero]
  obtain ⟨er, her⟩ := hrec ⟨0, '=', some (.indexed "" 0 1)⟩
  refine ⟨er, ?_⟩
  have : rec data ⟨((0 : Nat) : Int), '=', some (.indexed "" 0 1)⟩ = .error er := her
  rw [this]
  rfl

/-- two instances with one continuous attribute: if the computed split value is not below the larger value, growing never returns -/
theorem neighbours_loop {a b : F} (hba : (b <. a) = false) (hne : (b ==. a) = false)
    (hgain : (((((Dbl.ofNat 1 : F) /. Dbl.ofNat 2) *. labelEntropy ["b"]) +.
      (((Dbl.ofNat 1 : F) /. Dbl.ofNat 2) *. labelEntropy ["a"])) <. labelEntropy ["a", "b"]) = true)
    (h1 : (a <=. ((a +. b) /. Dbl.ofInt 2)) = true) (h2 : (b <=. ((a +. b) /. Dbl.ofInt 2)) = true)
    {data : IList F} (hd : data = [⟨"a", [.continuous a], none⟩, ⟨"b", [.continuous b], none⟩]) :
    ∀ (fuel : Nat) (c : Cond F), ∃ e, Node.grow none false fuel data c = .error e := by
  apply never_returns (by subst hd; simp [IList.getDistinctClassLabels])
  intro rec mk hrec
  set A : Inst F := ⟨"a", [.continuous a], none⟩ with hA
  set B : Inst F := ⟨"b", [.continuous b], none⟩ with hB
  have hga : A.getAttribute 0 = .ok (.continuous a) := rfl
  have hca : A.contAt 0 = .ok a := rfl
  have hcb : B.contAt 0 = .ok b := rfl
  have hat0 : atR data 0 = .ok A := by rw [hd]; rfl
  have hsort : data.sortByAttribute 0 = .ok data := by
    rw [hd]
    unfold IList.sortByAttribute
    simp only [List.mapM_cons, List.mapM_nil, hca, hcb, res_bind_ok, res_pure, stableSort, List.foldr_cons,
      List.foldr_nil, insertBy, hba, Bool.false_eq_true, if_false, List.map_cons, List.map_nil]
  have hcd : data.classDistribution = DD.ofList ["a", "b"] := by rw [classDistribution_eq, hd]; rfl
  have hr : (DD.ofList ["a", "b"]).removeItem "a" = DD.ofList ["b"] := by decide +kernel
  have hl : DD.empty.addItem "a" = DD.ofList ["a"] := rfl
  have hsweep : data.foldlM (Node.sweepStep data.length 0) (⟨none, data.classDistribution, DD.empty,
      ⟨labelEntropy ["a", "b"], none, 0, Dbl.zero⟩⟩ : Node.Sweep F) = .ok ⟨some b, (DD.ofList ["b"]).removeItem "b",
        (DD.ofList ["a"]).addItem "b",
        ⟨((((Dbl.ofNat 1 : F) /. Dbl.ofNat 2) *. labelEntropy ["b"]) +.
          (((Dbl.ofNat 1 : F) /. Dbl.ofNat 2) *. labelEntropy ["a"])), some 0, 0, ((a +. b) /. Dbl.ofInt 2)⟩⟩ := by
    rw [hcd, hd]
    have s1 : Node.sweepStep 2 0 (⟨none, DD.ofList ["a", "b"], DD.empty,
        ⟨labelEntropy ["a", "b"], none, 0, Dbl.zero⟩⟩ : Node.Sweep F) A = .ok ⟨some a, DD.ofList ["b"], DD.ofList ["a"],
        ⟨labelEntropy ["a", "b"], none, 0, Dbl.zero⟩⟩ := by
      unfold Node.sweepStep Node.sweepValue
      rw [hca]
      simp only [res_bind_ok, res_pure]
      rw [show A.label = "a" from rfl, hr, hl]
    have s2 : Node.sweepStep 2 0 (⟨some a, DD.ofList ["b"], DD.ofList ["a"],
        ⟨labelEntropy ["a", "b"], none, 0, Dbl.zero⟩⟩ : Node.Sweep F) B = .ok ⟨some b, (DD.ofList ["b"]).removeItem "b",
        (DD.ofList ["a"]).addItem "b",
        ⟨((((Dbl.ofNat 1 : F) /. Dbl.ofNat 2) *. labelEntropy ["b"]) +.
          (((Dbl.ofNat 1 : F) /. Dbl.ofNat 2) *. labelEntropy ["a"])), some 0, 0, ((a +. b) /. Dbl.ofInt 2)⟩⟩ := by
      unfold Node.sweepStep Node.sweepValue
      rw [hcb]
      simp only [res_bind_ok, res_pure, Node.sweepSplit, hne, if_true]
      rw [show (DD.ofList ["b"]).getSum = 1 from rfl, show (DD.ofList ["a"]).getSum = 1 from rfl]
      rw [if_pos (by exact hgain)]
      rfl
    rw [show [A, B].length = 2 from rfl, List.foldlM_cons, s1]
    simp only [res_bind_ok]
    rw [List.foldlM_cons, s2]
    rfl
  have hsearch : ([0] : List Nat).foldlM Node.searchStep (⟨data, data.classDistribution,
      ⟨data.classDistribution.entropy, none, 0, Dbl.zero⟩⟩ : Node.Search F) =
      .ok ⟨data, data.classDistribution,
      ⟨((((Dbl.ofNat 1 : F) /. Dbl.ofNat 2) *. labelEntropy ["b"]) +.
          (((Dbl.ofNat 1 : F) /. Dbl.ofNat 2) *. labelEntropy ["a"])), some 0, 0, ((a +. b) /. Dbl.ofInt 2)⟩⟩ := by
    rw [List.foldlM_cons]
    unfold Node.searchStep Node.searchKind Node.searchContinuous
    simp only [hat0, res_bind_ok, hga, Attr.isDiscreteIndexed, Attr.isDiscrete, Attr.isContinuous, if_true,
      Bool.false_eq_true, if_false, hsort]
    rw [show (data.classDistribution.entropy : F) = labelEntropy ["a", "b"] by rw [hcd]; rfl, hsweep]
    rfl
  unfold Node.splitNode
  rw [hat0]
  simp only [res_bind_ok]
  rw [show A.attributeSize = 1 from rfl, show Node.triedIndices none 1 = .ok [0] from rfl]
  simp only [res_bind_ok]
  rw [hsearch]
  simp only [res_bind_ok]
  unfold Node.finish
  simp only [hat0, res_bind_ok, hga]
  unfold Node.childrenKind
  simp only [Attr.isDiscreteIndexed, Attr.isDiscrete, Attr.isContinuous, if_true, Bool.false_eq_true, if_false]
  unfold Node.childrenContinuous
  have hv : ∀ x ∈ data, ContAt x 0 (contValAt x 0) := by
    rw [hd]; intro x hx
    simp only [List.mem_cons, List.not_mem_nil, or_false] at hx
    rcases hx with rfl | rfl <;> rfl
  obtain ⟨p0, p1, e, h0, _, _⟩ := C23_partition_by_threshold data 0 ((a +. b) /. Dbl.ofInt 2) _ hv
  have hp0 : p0 = data := by
    rw [h0, List.filter_eq_self, hd]
    intro x hx
    simp only [List.mem_cons, List.not_mem_nil, or_false] at hx
    rcases hx with rfl | rfl
    · exact h1
    · exact h2
  rw [e, hp0]
  simp only [res_bind_ok, atR_cons_zero]
  obtain ⟨er, her⟩ := hrec ⟨0, '<', some (.continuous ((a +. b) /. Dbl.ofInt 2))⟩
  refine ⟨er, ?_⟩
  have : rec data ⟨((0 : Nat) : Int), '<', some (.continuous ((a +. b) /. Dbl.ofInt 2))⟩ = .error er := her
  rw [this]
  rfl

/-! ### two training sets -/

namespace D53

theorem log_val {L : CMath} {q r : ℚ} {y : ℝ} (hy : y = Real.log q) (h : LogCorrectAt L q) (hr : ∀ s, Nearest s y → s = r)
    {x : D53 L} (hx : x.val = .fin q) : (Dbl.log x).val = .fin r := by
  obtain ⟨s, hs, hn⟩ := h
  show (L.log x.val).rnd = _
  rw [hx, hs, hr s (by rw [hy]; exact hn)]

/-- a value of an indexed column that is the same in every instance -/
def constantColumn (L : CMath) : IList (D53 L) :=
  ⟨"b", [.indexed "k" 0 1], none⟩ :: List.replicate 12 ⟨"a", [.indexed "k" 0 1], none⟩

/-- `1 + ε` and `1 + 2ε` -/
def neighbour1 (L : CMath) : D53 L := ⟨.fin (1 + 1 / 2 ^ 52), by decide +kernel⟩
def neighbour2 (L : CMath) : D53 L := ⟨.fin (1 + 2 / 2 ^ 52), by decide +kernel⟩

end D53
open D53 in
/-- **C168, refuted**: in double precision, with a correctly rounded `log`, growing a tree from 13
instances that have the same value of an indexed attribute never returns, and neither does
growing a tree from two instances with the values `1 + ε` and `1 + 2ε`: at every depth of the
recursion the node hands all its data to its first child. -/
theorem C168_refuted {L : CMath} (h2 : LogCorrectAt L 2) :
    (LogCorrectAt L q13 → LogCorrectAt L p13 →
      ∀ (fuel : Nat) (c : Cond (D53 L)), ∃ e, Node.grow none false fuel (constantColumn L) c = .error e) ∧
    (LogCorrectAt L 1 → LogCorrectAt L (1 / 2) →
      ∀ (fuel : Nat) (c : Cond (D53 L)), ∃ e, Node.grow none false fuel
        [⟨"a", [.continuous (neighbour1 L)], none⟩, ⟨"b", [.continuous (neighbour2 L)], none⟩] c = .error e) := by
  have e2 : (Dbl.log (Dbl.ofInt 2 : D53 L)).val = .fin ln2 :=
    log_val rfl h2 nearest_two.2 (by rw [val_int]; decide +kernel)
  constructor
  · intro hq hp
    apply constant_index_loops (w := "k")
    · unfold constantColumn; simp
    · unfold constantColumn
      simp [IList.getDistinctClassLabels, List.replicate]
    · intro x hx
      unfold constantColumn at hx
      simp only [List.mem_cons, List.mem_replicate] at hx
      rcases hx with rfl | ⟨_, rfl⟩ <;> rfl
    · have hd : DD.ofList ((constantColumn L).map Inst.label) = ⟨[("a", 12), ("b", 1)], 13⟩ := by
        show DD.ofList ["b", "a", "a", "a", "a", "a", "a", "a", "a", "a", "a", "a", "a"] = _
        decide +kernel
      have hlen : ((constantColumn L).map Inst.label).length = 13 := rfl
      have ep : (Dbl.log ((Dbl.ofNat 12 : D53 L) /. Dbl.ofNat 13)).val = .fin lnP :=
        log_val rfl hp nearest_p13.2 (by rw [val_div, val_nat, val_nat]; decide +kernel)
      have eq : (Dbl.log ((Dbl.ofNat 1 : D53 L) /. Dbl.ofNat 13)).val = .fin lnQ :=
        log_val rfl hq nearest_q13.2 (by rw [val_div, val_nat, val_nat]; decide +kernel)
      have h0 : (labelEntropy [] : D53 L) = Dbl.zero := rfl
      unfold NoGainIndexed
      rw [not_not, hlen, h0, lt_val]
      unfold labelEntropy
      rw [hd]
      simp only [DD.entropy, List.foldl_cons, List.foldl_nil, val_add, val_sub, val_mul, val_div, val_nat, val_zero,
        e2, ep, eq]
      decide +kernel
  · intro h1 hh
    refine neighbours_loop (a := neighbour1 L) (b := neighbour2 L) ?_ ?_ ?_ ?_ ?_ rfl
    · rw [lt_val]; show XR.lt (.fin (1 + 2 / 2 ^ 52)) (.fin (1 + 1 / 2 ^ 52)) = false; decide +kernel
    · show XR.eq (.fin (1 + 2 / 2 ^ 52)) (.fin (1 + 1 / 2 ^ 52)) = false; decide +kernel
    · have ha : DD.ofList ["a"] = ⟨[("a", 1)], 1⟩ := by decide +kernel
      have hb : DD.ofList ["b"] = ⟨[("b", 1)], 1⟩ := by decide +kernel
      have hab : DD.ofList ["a", "b"] = ⟨[("a", 1), ("b", 1)], 2⟩ := by decide +kernel
      have e1 : (Dbl.log ((Dbl.ofNat 1 : D53 L) /. Dbl.ofNat 1)).val = .fin 0 :=
        log_val rfl h1 nearest_one.2 (by rw [val_div, val_nat]; decide +kernel)
      have eh : (Dbl.log ((Dbl.ofNat 1 : D53 L) /. Dbl.ofNat 2)).val = .fin (-ln2) :=
        log_val rfl hh nearest_half.2 (by rw [val_div, val_nat, val_nat]; decide +kernel)
      rw [lt_val]
      unfold labelEntropy
      rw [ha, hb, hab]
      simp only [DD.entropy, List.foldl_cons, List.foldl_nil, val_add, val_sub, val_mul, val_div, val_nat, val_zero,
        e2, e1, eh]
      decide +kernel
    · show XR.le (.fin (1 + 1 / 2 ^ 52)) (XR.rnd (XR.div (XR.rnd (XR.add (.fin (1 + 1 / 2 ^ 52)) (.fin (1 + 2 / 2 ^ 52)))) (XR.rnd (.fin ((2 : ℤ) : ℚ))))) = true
      decide +kernel
    · show XR.le (.fin (1 + 2 / 2 ^ 52)) (XR.rnd (XR.div (XR.rnd (XR.add (.fin (1 + 1 / 2 ^ 52)) (.fin (1 + 2 / 2 ^ 52)))) (XR.rnd (.fin ((2 : ℤ) : ℚ))))) = true
      decide +kernel

/-! ## the hypotheses are met -/

-- a library with the five logarithms exists, so the two training sets make its trees recurse for ever
example : ∀ fuel c, ∃ e, Node.grow none false fuel (D53.constantColumn D53.tableLib) c = .error e :=
  (C168_refuted D53.table_two).1 D53.table_q13 D53.table_p13
example : ∀ fuel c, ∃ e, Node.grow none false fuel
    [⟨"a", [.continuous (D53.neighbour1 D53.tableLib)], none⟩, ⟨"b", [.continuous (D53.neighbour2 D53.tableLib)], none⟩] c =
    .error e :=
  (C168_refuted D53.table_two).2 D53.table_one D53.table_half

/-- three instances with a continuous and a discrete attribute -/
def spreadData (L : CMath) : IList (D53 L) :=
  [⟨"a", [.continuous (Dbl.ofInt 1), .discrete "x"], none⟩, ⟨"b", [.continuous (Dbl.ofInt 2), .discrete "x"], none⟩,
   ⟨"a", [.continuous (Dbl.ofInt 3), .discrete "y"], none⟩]

theorem spreadData_spread (L : CMath) : Spread (spreadData L) := by
  have hv : ∀ x ∈ spreadData L, ∀ (i : Nat) v, x.attrs[i]? = some (.continuous v) →
      ∃ n : ℤ, 1 ≤ n ∧ n ≤ 3 ∧ v = Dbl.ofInt n := by
    intro x hx i v hxi
    simp only [spreadData, List.mem_cons, List.not_mem_nil, or_false] at hx
    rcases hx with rfl | rfl | rfl
    · match i with
      | 0 => simp at hxi; exact ⟨1, by norm_num, by norm_num, hxi.symm⟩
      | 1 => simp at hxi
      | i + 2 => simp at hxi
    · match i with
      | 0 => simp at hxi; exact ⟨2, by norm_num, by norm_num, hxi.symm⟩
      | 1 => simp at hxi
      | i + 2 => simp at hxi
    · match i with
      | 0 => simp at hxi; exact ⟨3, by norm_num, by norm_num, hxi.symm⟩
      | 1 => simp at hxi
      | i + 2 => simp at hxi
  refine ⟨fun x hx i v hxi => ?_, fun x hx y hy i v w hxi hyi hlt => ?_⟩
  · obtain ⟨n, _, _, rfl⟩ := hv x hx i v hxi
    exact ⟨D53.rnd n, rfl⟩
  · obtain ⟨n, hn1, hn3, rfl⟩ := hv x hx i v hxi
    obtain ⟨m, hm1, hm3, rfl⟩ := hv y hy i w hyi
    refine ⟨D53.of (.fin (n + 1 / 2)), ?_, ?_⟩
    · have : n = 1 ∨ n = 2 ∨ n = 3 := by omega
      rcases this with rfl | rfl | rfl <;>
      · show XR.lt (XR.rnd (.fin _)) (XR.rnd (.fin _)) = true
        decide +kernel
    · have hlt' : XR.lt (XR.rnd (.fin (n : ℚ))) (XR.rnd (.fin (m : ℚ))) = true := hlt
      have h1 : n = 1 ∨ n = 2 ∨ n = 3 := by omega
      have h2 : m = 1 ∨ m = 2 ∨ m = 3 := by omega
      show XR.lt (XR.rnd (.fin _)) (XR.rnd (.fin _)) = true
      clear hlt
      rcases h1 with rfl | rfl | rfl <;> rcases h2 with rfl | rfl | rfl <;> revert hlt' <;> decide +kernel

-- for every library of functions the hypotheses of `C168_double_partial` hold of `spreadData`
example (L : CMath) : ∃ n, Node.grow none false 3 (spreadData L) ⟨-1, '=', none⟩ = .ok n :=
  C168_double_partial (ts := [.continuous, .discrete]) (by intro _ _ h; cases h) false (by simp [spreadData])
    (by intro x hx; simp only [spreadData, List.mem_cons, List.not_mem_nil, or_false] at hx
        rcases hx with rfl | rfl | rfl <;> rfl)
    (spreadData_spread L) (by intro h; simp at h) _ (by simp [spreadData])

end Verif
