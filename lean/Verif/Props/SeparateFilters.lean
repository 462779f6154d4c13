import Verif.Props.FilterTwice

/-! # C204: converting two data sets separately (training and test data) -/

namespace Verif
open Dbl

section
variable {F : Type} [Dbl F]
set_option linter.unusedSectionVars false

/-- In both data sets every discrete attribute takes the same values (any number of times). -/
def SameValues (l m : IList F) : Prop :=
  ∀ (i : Nat) (v : String), (∃ x ∈ l, x.attrs[i]? = some (.discrete v)) ↔
    (∃ x ∈ m, x.attrs[i]? = some (.discrete v))

theorem sorted_unique : ∀ {u w : List String}, u.Pairwise (· < ·) → w.Pairwise (· < ·) →
    (∀ v, v ∈ u ↔ v ∈ w) → u = w := by
  intro u w hu hw h
  have hp : u.Perm w := by
    rw [List.perm_ext_iff_of_nodup]
    · exact h
    · exact hu.imp (fun h e => absurd (e ▸ h) (by simp))
    · exact hw.imp (fun h e => absurd (e ▸ h) (by simp))
  exact hp.eq_of_pairwise (fun a b _ _ h1 h2 => absurd h1 (String.lt_asymm h2)) hu hw

theorem table_unique {l m : IList F} (hs : SameValues l m) {i : Nat} {u w : List String}
    (hu : IsValueTable l i u) (hw : IsValueTable m i w) : u = w :=
  sorted_unique hu.sorted hw.sorted (fun v => by rw [hu.mem_iff, hw.mem_iff]; exact hs i v)

theorem getElem?_block {α : Type} {vs : List String} {b c : List α} (g : String → α)
    (hb : b.length = vs.length ∧ ∀ (j : Nat) u, vs[j]? = some u → b[j]? = some (g u))
    (hc : c.length = vs.length ∧ ∀ (j : Nat) u, vs[j]? = some u → c[j]? = some (g u)) : b = c := by
  apply List.ext_getElem?
  intro j
  cases h : vs[j]? with
  | none =>
    have hj := List.getElem?_eq_none_iff.1 h
    rw [List.getElem?_eq_none (by omega), List.getElem?_eq_none (by omega)]
  | some u => rw [hb.2 j u h, hc.2 j u h]

theorem oneHot_unique {vs : List String} {v : String} {b c : List (Attr F)}
    (hb : OneHotBlock vs v b) (hc : OneHotBlock vs v c) : b = c :=
  getElem?_block (fun u => .continuous (if u = v then Dbl.one else Dbl.zero)) hb hc

theorem binary_unique {vs : List String} {v : String} {b c : List (Attr F)}
    (hb : BinaryBlock vs v b) (hc : BinaryBlock vs v c) : b = c :=
  getElem?_block (fun u => .binary (if u = v then "true" else "false")) hb hc

theorem index_unique {vs : List String} (hvs : vs.Pairwise (· < ·)) {v : String}
    {b c : List (Attr F)} (hb : IndexBlock vs v b) (hc : IndexBlock vs v c) : b = c := by
  obtain ⟨k, hk, ek, rfl⟩ := hb
  obtain ⟨j, hj, ej, rfl⟩ := hc
  have hnd : vs.Nodup := hvs.imp (fun h e => absurd (e ▸ h) (by simp))
  have : k = j := by
    rw [List.getElem?_eq_getElem hk] at ek
    rw [List.getElem?_eq_getElem hj] at ej
    exact (hnd.getElem_inj_iff).1 ((Option.some.inj ek).trans (Option.some.inj ej).symm)
  subst this; rfl

theorem replaces_unique {block : List String → String → List (Attr F) → Prop}
    (hb : ∀ vs v b c, vs.Pairwise (· < ·) → block vs v b → block vs v c → b = c)
    {l m : IList F} (hs : SameValues l m) {x y z : Inst F}
    (hy : ReplacesDiscrete block l x y) (hz : ReplacesDiscrete block m x z) : y = z := by
  obtain ⟨by', ey, hfy⟩ := hy.attrs
  obtain ⟨bz, ez, hfz⟩ := hz.attrs
  have hbb : ∀ (cs : List (Nat × String)) (b c : List (List (Attr F))),
      List.Forall₂ (fun (c : Nat × String) b => ∃ vs, IsValueTable l c.1 vs ∧ block vs c.2 b) cs b →
      List.Forall₂ (fun (c : Nat × String) b => ∃ vs, IsValueTable m c.1 vs ∧ block vs c.2 b) cs c →
      b = c := by
    intro cs b c h1
    induction h1 generalizing c with
    | nil => intro h2; cases h2; rfl
    | @cons p b0 cs bs h0 _ ih =>
      intro h2
      cases h2 with
      | @cons _ c0 _ cs' h0' h2 =>
        obtain ⟨u, hu, hbu⟩ := h0
        obtain ⟨w, hw, hbw⟩ := h0'
        have := table_unique hs hu hw
        subst this
        rw [hb u p.2 b0 c0 hu.sorted hbu hbw, ih cs' h2]
  have e := hbb _ _ _ hfy hfz
  have h1 := hy.label
  have h2 := hz.label
  have h3 := hy.possible
  have h4 := hz.possible
  have h5 : y.attrs = z.attrs := by rw [ey, ez, e]
  cases y; cases z
  simp_all

/-- **C204 (partial).** Two data sets converted one after the other with the same one of the
three filters, no object being in both. If every discrete attribute takes the same set of values
in both, equal instances are turned into equal instances. Without that assumption the claim is
false (`C204_refuted`). -/
theorem C204_partial (showD : F → String) (h : Heap F) (ds es : RefSet) (l m : IList F)
    (hl : Filterable h ds l) (hm : Filterable h es m) (hdis : ∀ r ∈ ds.refs, r ∉ es.refs)
    (hs : SameValues l m)
    (f : Heap F → RefSet → Res (Heap F × RefSet)) (hf : DiscreteFilter showD f) :
    ∃ h' h'', f h ds = .ok (h', ds) ∧ f h' es = .ok (h'', es) ∧
      ∀ r ∈ ds.refs, ∀ s ∈ es.refs, h[r]? = h[s]? → h''[r]? = h''[s]? := by
  have key : ∀ (block : List String → String → List (Attr F) → Prop)
      (hb : ∀ vs v b c, vs.Pairwise (· < ·) → block vs v b → block vs v c → b = c)
      (hstep : ∀ (h : Heap F) (ds : RefSet) (l : IList F), Filterable h ds l →
        ∃ h', f h ds = .ok (h', ds) ∧ ChangedAt (ReplacesDiscrete block l) ds.refs h h'),
      ∃ h' h'', f h ds = .ok (h', ds) ∧ f h' es = .ok (h'', es) ∧
        ∀ r ∈ ds.refs, ∀ s ∈ es.refs, h[r]? = h[s]? → h''[r]? = h''[s]? := by
    intro block hb hstep
    obtain ⟨h', e, hch⟩ := hstep h ds l hl
    have hsame : ∀ s ∈ es.refs, h'[s]? = h[s]? := by
      intro s hs'
      exact hch.rest s (fun hr => hdis s hr hs')
    have hm' : Filterable h' es m := by
      refine ⟨?_, hm.distinct, hm.nonempty, hm.types, hm.noComma⟩
      have : ∀ (refs : List Nat) (m : IList F), (∀ s ∈ refs, h'[s]? = h[s]?) →
          PointTo h refs m → PointTo h' refs m := by
        intro refs m hr hp
        induction hp with
        | nil => exact List.Forall₂.nil
        | @cons r x refs m h0 _ ih =>
          refine List.Forall₂.cons ?_ (ih (fun s hs => hr s (by simp [hs])))
          rw [hr r (by simp)]; exact h0
      exact this es.refs m hsame hm.points
    obtain ⟨h'', e', hch'⟩ := hstep h' es m hm'
    refine ⟨h', h'', e, e', ?_⟩
    intro r hr s hs' heq
    obtain ⟨x, _, hx⟩ := hl.points.exists r hr
    obtain ⟨y, hy, hxy⟩ := hch.changed r hr x hx
    obtain ⟨z, hz, hxz⟩ := hch'.changed s hs' x (by rw [hsame s hs', ← heq, hx])
    rw [hch'.rest r (hdis r hr), hy, hz, replaces_unique hb hs hxy hxz]
  cases hf with
  | continuous =>
    exact key OneHotBlock (fun _ _ _ _ _ h1 h2 => oneHot_unique h1 h2) (fun h ds l hf => C94_partial showD h ds l hf)
  | binary =>
    exact key BinaryBlock (fun _ _ _ _ _ h1 h2 => binary_unique h1 h2) (fun h ds l hf => C95_partial showD h ds l hf)
  | indexed =>
    exact key IndexBlock (fun _ _ _ _ hv h1 h2 => index_unique hv h1 h2) (fun h ds l hf => C96_partial showD h ds l hf)

end

section
open XR

/-- training data with red and blue, test data with red and green -/
def exSepHeap : Heap XR :=
  [⟨"a", [.discrete "red"], none⟩, ⟨"b", [.discrete "blue"], none⟩,
   ⟨"a", [.discrete "red"], none⟩, ⟨"b", [.discrete "green"], none⟩, ⟨"a", [.discrete "red"], none⟩,
   ⟨"b", [.discrete "blue"], none⟩]

def exSepTrain : RefSet := ⟨[0, 1], ⟨[.discrete], []⟩⟩

def exSepTest : RefSet := ⟨[2, 3], ⟨[.discrete], []⟩⟩

def exSepOne : RefSet := ⟨[4], ⟨[.discrete], []⟩⟩

def exSepOther : RefSet := ⟨[5, 4], ⟨[.discrete], []⟩⟩

/-- **C204 fails of the code**: a test set with red only gives red a vector of one number where
the training set gives it two; and in a test set with green in place of blue, green gets exactly
the vector blue got in the training set. -/
theorem C204_refuted :
    (∃ h' h'', discreteToContinuous (fun _ => "") exSepHeap exSepTrain = .ok (h', exSepTrain) ∧
      discreteToContinuous (fun _ => "") h' exSepOne = .ok (h'', exSepOne) ∧
      exSepHeap[0]? = exSepHeap[4]? ∧ h''[0]? ≠ h''[4]?) ∧
    (∃ h' h'', discreteToContinuous (fun _ => "") exSepHeap exSepTrain = .ok (h', exSepTrain) ∧
      discreteToContinuous (fun _ => "") h' exSepTest = .ok (h'', exSepTest) ∧
      exSepHeap[1]? ≠ exSepHeap[3]? ∧ h''[1]? = h''[3]?) := by
  let t : Heap XR := [⟨"a", [.continuous (.fin 0), .continuous (.fin 1)], none⟩,
    ⟨"b", [.continuous (.fin 1), .continuous (.fin 0)], none⟩]
  refine ⟨⟨t ++ exSepHeap.drop 2, t ++ (exSepHeap.drop 2).take 2 ++
      [⟨"a", [.continuous (.fin 1)], none⟩, ⟨"b", [.discrete "blue"], none⟩],
      by decide +kernel, by decide +kernel, rfl, by decide +kernel⟩,
    ⟨t ++ exSepHeap.drop 2, t ++ t ++ exSepHeap.drop 4,
      by decide +kernel, by decide +kernel, by decide +kernel, by decide +kernel⟩⟩

/-- four training instances with the numbers 0, 0, 0, 4 and four test instances with 4, 4, 4, 0 -/
def exSepNumbers : Heap XR :=
  [0, 0, 0, 4, 4, 4, 4, 0].map (fun q => ⟨"a", [.continuous (.fin q)], none⟩)

/-- **C204 fails of the code for `Normalize` as well**, which uses the mean and deviation of the
data set it is given: 0 becomes -1/2 and 4 becomes 3/2 in the training data, but -3/2 and 1/2 in
the test data. -/
theorem C204_normalize_refuted :
    ∃ h' h'', normalize exSepNumbers ⟨[0, 1, 2, 3], ⟨[.continuous], []⟩⟩ =
        .ok (h', ⟨[0, 1, 2, 3], ⟨[.continuous], []⟩⟩) ∧
      normalize h' ⟨[4, 5, 6, 7], ⟨[.continuous], []⟩⟩ =
        .ok (h'', ⟨[4, 5, 6, 7], ⟨[.continuous], []⟩⟩) ∧
      exSepNumbers[3]? = exSepNumbers[4]? ∧ h''[3]? ≠ h''[4]? :=
  ⟨[-1/2, -1/2, -1/2, 3/2, 4, 4, 4, 0].map (fun q => ⟨"a", [.continuous (.fin q)], none⟩),
   [-1/2, -1/2, -1/2, 3/2, 1/2, 1/2, 1/2, -3/2].map (fun q => ⟨"a", [.continuous (.fin q)], none⟩),
   by decide +kernel, by decide +kernel, by decide +kernel, by decide +kernel⟩

/-- the assumptions of `C204_partial` are met by data sets that differ in order and counts -/
example : Filterable exSepHeap exSepTrain (exSepHeap.take 2) ∧
    Filterable exSepHeap exSepOther ((exSepHeap.drop 4).reverse) := by
  refine ⟨⟨?_, by decide, by decide, by decide, by decide⟩,
    ⟨?_, by decide, by decide, by decide, by decide⟩⟩
  · exact List.Forall₂.cons (R := fun r x => exSepHeap[r]? = some x) rfl
      (List.Forall₂.cons (R := fun r x => exSepHeap[r]? = some x) rfl List.Forall₂.nil)
  · exact List.Forall₂.cons (R := fun r x => exSepHeap[r]? = some x) rfl
      (List.Forall₂.cons (R := fun r x => exSepHeap[r]? = some x) rfl List.Forall₂.nil)

example : SameValues (exSepHeap.take 2) ((exSepHeap.drop 4).reverse) := by
  have h1 : ∀ x, x ∈ exSepHeap.take 2 ↔ x ∈ (exSepHeap.drop 4).reverse := by
    intro x
    simp only [exSepHeap, List.take, List.drop, List.reverse, List.reverseAux, List.mem_cons,
      List.not_mem_nil, or_false]
    exact or_comm
  intro i v
  constructor
  · rintro ⟨x, hx, e⟩
    exact ⟨x, (h1 x).1 hx, e⟩
  · rintro ⟨x, hx, e⟩
    exact ⟨x, (h1 x).2 hx, e⟩

end
end Verif
