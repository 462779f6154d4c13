import Verif.Props.Gaussian
import Verif.Spec.DataSet
import Verif.Model.DecisionTree
import Verif.Spec.Tree

/-! # Properties C57-C60: grown decision trees

`Grown` says what a grown tree looks like, without mentioning entropies. It is shown for every
tree the constructor returns, in any arithmetic; the properties follow from it. -/

set_option linter.unusedSectionVars false

namespace Verif
open Dbl

section
variable {F : Type} [Dbl F]

/-- `Grown ts data n`: the node `n` was grown from the instances `data`, all of attribute types
`ts`: it carries the distribution and the majority label of `data`; if it is not a leaf, `data`
is divided among its children, and an instance given to a child satisfies the condition of that
child and of none before it. -/
inductive Grown (ts : List AttrType) : IList F → Node F → Prop
  | leaf (data : IList F) (c : Cond F) (hne : data ≠ []) :
      Grown ts data (.mk c true (getMaximum (data.map Inst.label)) (DD.ofList (data.map Inst.label)) [])
  | split (data : IList F) (c : Cond F) (parts : List (IList F × Node F)) (hne : data ≠ [])
      (hch : ∀ p ∈ parts, Grown ts p.1 p.2)
      (hperm : (parts.map Prod.fst).flatten.Perm data)
      (hroute : ∀ l1 p l2, parts = l1 ++ p :: l2 → ∀ x ∈ p.1, p.2.cond.satisfy x = .ok true ∧
        ∀ q ∈ l1, q.2.cond.satisfy x = .ok false)
      (hdef : ∀ p ∈ parts, ∀ x : Inst F, typesOf x = ts → ∃ b, p.2.cond.satisfy x = .ok b) :
      Grown ts data (.mk c false (getMaximum (data.map Inst.label)) (DD.ofList (data.map Inst.label))
        (parts.map Prod.snd))

/-! ## values of typed columns -/

theorem typesOf_get {x : Inst F} {ts : List AttrType} (h : typesOf x = ts) {i : Nat} :
    ts[i]? = (x.attrs[i]?).map typeOf := by
  rw [← h, typesOf, List.getElem?_map]

theorem cont_of_type {x : Inst F} {ts : List AttrType} (h : typesOf x = ts) {i : Nat}
    (ht : ts[i]? = some .continuous) : ContAt x i (contValAt x i) := by
  rw [typesOf_get h] at ht
  unfold ContAt contValAt
  cases ha : x.attrs[i]? with
  | none => rw [ha] at ht; cases ht
  | some a => rw [ha] at ht; cases a <;> simp_all [typeOf]

theorem disc_of_type {x : Inst F} {ts : List AttrType} (h : typesOf x = ts) {i : Nat}
    (ht : ts[i]? = some .discrete) : x.attrs[i]? = some (.discrete (discValAt x i)) := by
  rw [typesOf_get h] at ht
  unfold discValAt
  cases ha : x.attrs[i]? with
  | none => rw [ha] at ht; cases ht
  | some a => rw [ha] at ht; cases a <;> simp_all [typeOf]

theorem idx_of_type {x : Inst F} {ts : List AttrType} (h : typesOf x = ts) {i : Nat}
    (ht : ts[i]? = some .discreteIndexed) : IndexAt x i (idxValAt x i) := by
  rw [typesOf_get h] at ht
  unfold IndexAt idxValAt
  cases ha : x.attrs[i]? with
  | none => rw [ha] at ht; cases ht
  | some a => rw [ha] at ht; cases a <;> simp_all [typeOf]

theorem attrOf_nat {x : Inst F} {i : Nat} {c : Char} {v : Option (Attr F)} {a : Attr F}
    (h : x.attrs[i]? = some a) : Cond.attrOf ⟨(i : Int), c, v⟩ x = .ok a := by
  have h1 : ¬ ((i : Int) < 0) := by omega
  simp only [Cond.attrOf, h1, if_false, Int.toNat_natCast, Inst.getAttribute, atR_eq_ok]
  exact h

theorem satisfy_threshold {x : Inst F} {i : Nat} {v t : F} (h : ContAt x i v) :
    Cond.satisfy ⟨i, '<', some (.continuous t)⟩ x = .ok (v <=. t) ∧
    Cond.satisfy ⟨i, '>', some (.continuous t)⟩ x = .ok (t <. v) := by
  constructor <;> simp only [Cond.satisfy] <;> rw [attrOf_nat h] <;> rfl

theorem satisfy_discrete {x : Inst F} {i : Nat} {v w : String} (h : x.attrs[i]? = some (.discrete v)) :
    Cond.satisfy ⟨i, '=', some (.discrete w)⟩ x = .ok (decide (v = w)) := by
  simp only [Cond.satisfy]; rw [attrOf_nat h]; rfl

theorem satisfy_indexed {x : Inst F} {i : Nat} {k j m : Int} (h : IndexAt x i k) (hj : j ≠ -1) :
    Cond.satisfy ⟨i, '=', some (.indexed "" j m)⟩ x = .ok (decide (k = j)) := by
  obtain ⟨s, m', h⟩ := h
  simp only [Cond.satisfy, hj, if_false]; rw [attrOf_nat h]; rfl

theorem satisfy_other {x : Inst F} {i : Nat} {m : Int} :
    Cond.satisfy ⟨i, '=', some (.indexed "" (-1) m)⟩ x = .ok true := by
  simp [Cond.satisfy]

/-! ## the search only reorders the data -/

theorem sortByAttribute_perm {l s : IList F} {i : Nat} (h : l.sortByAttribute i = .ok s) :
    s.Perm l := by
  unfold IList.sortByAttribute at h
  rw [bind_ok_iff] at h
  obtain ⟨keyed, hk, h⟩ := h
  cases h
  have h2 : keyed.map Prod.snd = l := by
    have := mapM_ok_inv hk
    clear hk
    induction this with
    | nil => rfl
    | cons hab _ ih =>
      rw [bind_ok_iff] at hab
      obtain ⟨v, _, hp⟩ := hab
      cases hp
      simp [ih]
  rw [← h2]
  exact (stableSort_perm _ keyed).map _

/-- what the search keeps -/
structure SearchInv (data : IList F) (n : Nat) (s : Node.Search F) : Prop where
  perm : s.data.Perm data
  kpos : 0 ≤ s.best.k
  attr : ∀ i, s.best.attr = some i → i < n

theorem indexedStep_best {data : IList F} {i k : Nat} {st st' : DD × Node.Best F}
    (h : Node.indexedStep data i st k = .ok st') :
    (st'.2.attr = st.2.attr ∨ st'.2.attr = some i) ∧ (0 ≤ st.2.k → 0 ≤ st'.2.k) := by
  unfold Node.indexedStep at h
  rw [bind_ok_iff] at h
  obtain ⟨d, _, h⟩ := h
  cases h
  split
  · simp only
    split <;> simp
  · simp

theorem sweepStep_best {n i : Nat} {s s' : Node.Sweep F} {x : Inst F}
    (h : Node.sweepStep n i s x = .ok s') :
    (s'.best.attr = s.best.attr ∨ s'.best.attr = some i) ∧ s'.best.k = s.best.k := by
  unfold Node.sweepStep at h
  rw [bind_ok_iff] at h
  obtain ⟨v, _, h⟩ := h
  cases h
  simp only [Node.sweepValue]
  cases s.prev with
  | none => simp
  | some p =>
    simp only [Node.sweepSplit]
    split
    · simp only
      split <;> simp
    · simp

theorem searchStep_inv {data : IList F} {n : Nat} {s s' : Node.Search F} {i : Nat} (hi : i < n)
    (hs : SearchInv data n s) (h : Node.searchStep s i = .ok s') : SearchInv data n s' := by
  unfold Node.searchStep at h
  rw [bind_ok_iff] at h
  obtain ⟨x0, _, h⟩ := h
  rw [bind_ok_iff] at h
  obtain ⟨a, _, h⟩ := h
  unfold Node.searchKind at h
  split at h
  · rw [bind_ok_iff] at h
    obtain ⟨m, _, h⟩ := h
    unfold Node.searchIndexed at h
    rw [bind_ok_iff] at h
    obtain ⟨r, hr, h⟩ := h
    cases h
    have : (∀ j, r.2.attr = some j → j < n) ∧ 0 ≤ r.2.k :=
      foldlM_keeps (P := fun st : DD × Node.Best F => (∀ j, st.2.attr = some j → j < n) ∧ 0 ≤ st.2.k)
        (by
          intro b a b' ⟨h1, h2⟩ hb
          obtain ⟨h3, h4⟩ := indexedStep_best hb
          refine ⟨?_, h4 h2⟩
          intro j hj
          rcases h3 with h3 | h3
          · exact h1 j (by rw [← h3]; exact hj)
          · rw [h3] at hj; cases hj; exact hi) _ _ _ hr ⟨hs.attr, hs.kpos⟩
    exact ⟨hs.perm, this.2, this.1⟩
  · split at h
    · unfold Node.searchDiscrete at h
      rw [bind_ok_iff] at h
      obtain ⟨e, _, h⟩ := h
      cases h
      refine ⟨hs.perm, ?_, ?_⟩
      · simp only; split <;> simp [hs.kpos]
      · simp only
        split
        · intro j hj; simp only [Option.some.injEq] at hj; omega
        · exact hs.attr
    · split at h
      · unfold Node.searchContinuous at h
        rw [bind_ok_iff] at h
        obtain ⟨sorted, hsort, h⟩ := h
        rw [bind_ok_iff] at h
        obtain ⟨r, hr, h⟩ := h
        cases h
        have : (∀ j, r.best.attr = some j → j < n) ∧ r.best.k = s.best.k :=
          foldlM_keeps (P := fun st : Node.Sweep F => (∀ j, st.best.attr = some j → j < n) ∧ st.best.k = s.best.k)
            (by
              intro b a b' ⟨h1, h2⟩ hb
              obtain ⟨h3, h4⟩ := sweepStep_best hb
              refine ⟨?_, by rw [h4, h2]⟩
              intro j hj
              rcases h3 with h3 | h3
              · exact h1 j (by rw [← h3]; exact hj)
              · rw [h3] at hj; cases hj; exact hi) _ _ _ hr ⟨hs.attr, rfl⟩
        exact ⟨(sortByAttribute_perm hsort).trans hs.perm, by rw [this.2]; exact hs.kpos, this.1⟩
      · cases h; exact hs

theorem search_inv {data : IList F} {n : Nat} {s s' : Node.Search F} {is : List Nat}
    (hi : ∀ i ∈ is, i < n) (hs : SearchInv data n s) (h : is.foldlM Node.searchStep s = .ok s') :
    SearchInv data n s' := by
  induction is generalizing s with
  | nil => cases h; exact hs
  | cons i is ih =>
    rw [List.foldlM_cons, bind_ok_iff] at h
    obtain ⟨s1, h1, h⟩ := h
    exact ih (fun j hj => hi j (by simp [hj])) (searchStep_inv (hi i (by simp)) hs h1) h

/-- the attribute index array is a permutation of the attribute positions -/
def ValidParam (param : Node.SubsetParam) : Prop :=
  ∀ size arr, param = some (size, arr) → ∀ n, (arr n).Perm (List.range n)

theorem triedIndices_lt {param : Node.SubsetParam} (hp : ValidParam param) {n : Nat} {is : List Nat}
    (h : Node.triedIndices param n = .ok is) : ∀ i ∈ is, i < n := by
  unfold Node.triedIndices at h
  cases hpar : param with
  | none => rw [hpar] at h; cases h; intro i hi; exact List.mem_range.1 hi
  | some p =>
    obtain ⟨size, arr⟩ := p
    rw [hpar] at h
    simp only at h
    split at h
    · refine foldlM_keeps (P := fun r : List Nat => ∀ i ∈ r, i < n) ?_ _ _ _ h (by simp)
      intro b a b' hb hs
      rw [bind_ok_iff] at hs
      obtain ⟨i, hi, hs⟩ := hs
      cases hs
      intro j hj
      rcases List.mem_append.1 hj with hj | hj
      · exact hb j hj
      · simp only [List.mem_singleton] at hj
        subst hj
        have hmem : j ∈ arr n := by
          unfold atR at hi
          split at hi
          · rename_i v hv; cases hi; exact List.mem_of_getElem? hv
          · cases hi
        exact List.mem_range.1 (((hp size arr hpar n).mem_iff).1 hmem)
    · cases h; intro i hi; exact List.mem_range.1 hi

theorem getClassLabels_eq (l : IList F) : l.getClassLabels = l.map Inst.label := by
  unfold IList.getClassLabels
  have : ∀ (l : IList F) (r : List String), l.foldl (fun r x => r ++ [x.label]) r = r ++ l.map Inst.label := by
    intro l
    induction l with
    | nil => simp
    | cons a l ih => intro r; simp [ih]
  rw [this]; simp

/-! ## the children -/

/-- what a list of children looks like -/
structure ChildrenOk (ts : List AttrType) (data : IList F) (ch : List (Node F))
    (parts : List (IList F × Node F)) : Prop where
  nodes : ch = parts.map Prod.snd
  perm : (parts.map Prod.fst).flatten.Perm data
  route : ∀ l1 p l2, parts = l1 ++ p :: l2 → ∀ x ∈ p.1, p.2.cond.satisfy x = .ok true ∧
    ∀ q ∈ l1, q.2.cond.satisfy x = .ok false
  defd : ∀ p ∈ parts, ∀ x : Inst F, typesOf x = ts → ∃ b, p.2.cond.satisfy x = .ok b

theorem two_route {P Q : IList F × Node F}
    (h1 : ∀ x ∈ P.1, P.2.cond.satisfy x = .ok true)
    (h2 : ∀ x ∈ Q.1, Q.2.cond.satisfy x = .ok true ∧ P.2.cond.satisfy x = .ok false) :
    ∀ l1 p l2, [P, Q] = l1 ++ p :: l2 → ∀ x ∈ p.1, p.2.cond.satisfy x = .ok true ∧
      ∀ q ∈ l1, q.2.cond.satisfy x = .ok false := by
  intro l1 p l2 h x hx
  match l1, h with
  | [], h =>
    simp only [List.nil_append, List.cons.injEq] at h
    obtain ⟨rfl, _⟩ := h
    exact ⟨h1 x hx, by simp⟩
  | [a], h =>
    simp only [List.cons_append, List.nil_append, List.cons.injEq] at h
    obtain ⟨rfl, rfl, _⟩ := h
    exact ⟨(h2 x hx).1, by intro q hq; simp at hq; subst hq; exact (h2 x hx).2⟩
  | a :: b :: l1, h =>
    have := congrArg List.length h
    simp at this

theorem childrenIndexed_ok {ts : List AttrType} {rec : IList F → Cond F → Res (Node F)}
    (hrec : ∀ p c n, rec p c = .ok n → n.cond = c) {data : IList F} {i : Nat} {k m : Int}
    (hts : ∀ x ∈ data, typesOf x = ts) (ht : ts[i]? = some .discreteIndexed) (hk : 0 ≤ k)
    {ch : List (Node F)} (h : Node.childrenIndexed rec data i k m = .ok ch) :
    ∃ parts, ChildrenOk ts data ch parts ∧ ∀ p ∈ parts, rec p.1 p.2.cond = .ok p.2 := by
  have hv : ∀ x ∈ data, IndexAt x i (idxValAt x i) := fun x hx => idx_of_type (hts x hx) ht
  obtain ⟨p0, p1, e, h0, h1, hperm⟩ := C22_partition_by_indexed data i k _ hv
  unfold Node.childrenIndexed at h
  rw [e] at h
  simp only [res_bind_ok, atR_cons_zero] at h
  rw [bind_ok_iff] at h
  obtain ⟨c0, hc0, h⟩ := h
  rw [show atR [p0, p1] 1 = .ok p1 from rfl] at h
  simp only [res_bind_ok] at h
  rw [bind_ok_iff] at h
  obtain ⟨c1, hc1, h⟩ := h
  cases h
  have e0 := hrec _ _ _ hc0
  have e1 := hrec _ _ _ hc1
  refine ⟨[(p0, c0), (p1, c1)], ⟨rfl, by simpa using hperm, ?_, ?_⟩, ?_⟩
  · apply two_route
    · intro x hx
      simp only at hx ⊢
      rw [h0, List.mem_filter] at hx
      rw [e0, satisfy_indexed (hv x hx.1) (by omega)]
      simpa using hx.2
    · intro x hx
      simp only at hx ⊢
      rw [h1, List.mem_filter] at hx
      rw [e0, e1, satisfy_other, satisfy_indexed (hv x hx.1) (by omega : k ≠ -1)]
      exact ⟨rfl, by simpa using hx.2⟩
  · intro p hp x hx
    simp only [List.mem_cons, List.not_mem_nil, or_false] at hp
    rcases hp with rfl | rfl
    · simp only; rw [e0]; exact ⟨_, satisfy_indexed (idx_of_type hx ht) (by omega)⟩
    · simp only; rw [e1]; exact ⟨_, satisfy_other⟩
  · intro p hp
    simp only [List.mem_cons, List.not_mem_nil, or_false] at hp
    rcases hp with rfl | rfl
    · simp only; rw [e0]; exact hc0
    · simp only; rw [e1]; exact hc1

theorem childrenContinuous_ok [LawfulOrd F] {ts : List AttrType} {rec : IList F → Cond F → Res (Node F)}
    (hrec : ∀ p c n, rec p c = .ok n → n.cond = c) {data : IList F} {i : Nat} {t : F}
    (hts : ∀ x ∈ data, typesOf x = ts) (ht : ts[i]? = some .continuous)
    (htord : Dbl.Ord t ∨ ∀ p c n, rec p c = .ok n → p ≠ [])
    (hord : ∀ x ∈ data, Dbl.Ord (contValAt x i))
    {ch : List (Node F)} (h : Node.childrenContinuous rec data i t = .ok ch) :
    ∃ parts, ChildrenOk ts data ch parts ∧ ∀ p ∈ parts, rec p.1 p.2.cond = .ok p.2 := by
  have hv : ∀ x ∈ data, ContAt x i (contValAt x i) := fun x hx => cont_of_type (hts x hx) ht
  obtain ⟨p0, p1, e, h0, h1, hperm⟩ := C23_partition_by_threshold data i t _ hv
  unfold Node.childrenContinuous at h
  rw [e] at h
  simp only [res_bind_ok, atR_cons_zero] at h
  rw [bind_ok_iff] at h
  obtain ⟨c0, hc0, h⟩ := h
  rw [show atR [p0, p1] 1 = .ok p1 from rfl] at h
  simp only [res_bind_ok] at h
  rw [bind_ok_iff] at h
  obtain ⟨c1, hc1, h⟩ := h
  cases h
  have e0 := hrec _ _ _ hc0
  have e1 := hrec _ _ _ hc1
  have htord : Dbl.Ord t := by
    rcases htord with h | h
    · exact h
    have hne0 := h _ _ _ hc0
    obtain ⟨y, hy⟩ := List.exists_mem_of_ne_nil _ hne0
    rw [h0, List.mem_filter] at hy
    exact LawfulOrd.ord_right _ _ hy.2
  refine ⟨[(p0, c0), (p1, c1)], ⟨rfl, by simpa using hperm, ?_, ?_⟩, ?_⟩
  · apply two_route
    · intro x hx
      simp only at hx ⊢
      rw [h0, List.mem_filter] at hx
      rw [e0, (satisfy_threshold (hv x hx.1)).1, hx.2]
    · intro x hx
      simp only at hx ⊢
      rw [h1, List.mem_filter] at hx
      rw [e0, e1, (satisfy_threshold (hv x hx.1)).1, (satisfy_threshold (hv x hx.1)).2]
      have hle : (contValAt x i <=. t) = false := by simpa using hx.2
      refine ⟨?_, by rw [hle]⟩
      congr 1
      by_contra hc
      have : (contValAt x i <=. t) = true := (not_lt_iff_le (hord x hx.1) htord).1 (by simpa using hc)
      rw [hle] at this; cases this
  · intro p hp x hx
    simp only [List.mem_cons, List.not_mem_nil, or_false] at hp
    rcases hp with rfl | rfl
    · simp only; rw [e0]; exact ⟨_, (satisfy_threshold (cont_of_type hx ht)).1⟩
    · simp only; rw [e1]; exact ⟨_, (satisfy_threshold (cont_of_type hx ht)).2⟩
  · intro p hp
    simp only [List.mem_cons, List.not_mem_nil, or_false] at hp
    rcases hp with rfl | rfl
    · simp only; rw [e0]; exact hc0
    · simp only; rw [e1]; exact hc1

theorem childrenDiscrete_ok {ts : List AttrType} {rec : IList F → Cond F → Res (Node F)}
    (hrec : ∀ p c n, rec p c = .ok n → n.cond = c) {data : IList F} {i : Nat}
    (hts : ∀ x ∈ data, typesOf x = ts) (ht : ts[i]? = some .discrete)
    {ch : List (Node F)} (h : Node.childrenDiscrete rec data i = .ok ch) :
    ∃ parts, ChildrenOk ts data ch parts ∧ ∀ p ∈ parts, rec p.1 p.2.cond = .ok p.2 := by
  have hv : ∀ x ∈ data, x.attrs[i]? = some (.discrete (discValAt x i)) :=
    fun x hx => disc_of_type (hts x hx) ht
  have hv' : ∀ x ∈ data, DiscAt x i (discValAt x i) := fun x hx => .inl (hv x hx)
  obtain ⟨vs, ps, hfo, e, hps, _, hperm⟩ := C21_partition_by_discrete data i _ hv'
  obtain ⟨vs', e', hfo'⟩ := C09_attribute_values data i _ hv'
  have hvs : vs' = vs := hfo'.unique hfo
  subst hvs
  unfold Node.childrenDiscrete at h
  rw [e', e] at h
  simp only [res_bind_ok] at h
  have hinv := mapM_ok_inv h
  -- the parts
  set part : String → IList F := fun a => data.filter (fun x => discValAt x i == a) with hpart
  have hlen : ch.length = vs'.length := by
    have := hinv.length_eq; simpa using this.symm
  have hget : ∀ j (hj : j < vs'.length), rec (part vs'[j]) ⟨i, '=', some (.discrete vs'[j])⟩ =
      .ok (ch[j]'(by omega)) := by
    intro j hj
    have hf := List.forall₂_iff_get.1 hinv
    have := hf.2 j (by simpa using hj) (by omega)
    simp only [List.get_eq_getElem, List.getElem_zipIdx, Nat.zero_add] at this
    unfold Node.childDiscrete at this
    simp only at this
    rw [atR_ok_of_lt (by rw [hps]; simpa using hj)] at this
    simp only [res_bind_ok] at this
    rw [← this]
    simp [hps, hpart]
  refine ⟨(vs'.map part).zip ch, ⟨?_, ?_, ?_, ?_⟩, ?_⟩
  · rw [List.map_snd_zip (by simp [hlen])]
  · rw [List.map_fst_zip (by simp [hlen]), ← hps]; exact hperm
  · intro l1 p l2 hl x hx
    -- position of p
    have hj : l1.length < ((vs'.map part).zip ch).length := by rw [hl]; simp
    have hjv : l1.length < vs'.length := by simp at hj; omega
    have hp : p = (part vs'[l1.length], ch[l1.length]'(by omega)) := by
      have : ((vs'.map part).zip ch)[l1.length] = p := by simp [hl]
      rw [← this]; simp
    subst hp
    simp only at hx
    rw [hpart, List.mem_filter] at hx
    have hxv : discValAt x i = vs'[l1.length] := by simpa using hx.2
    constructor
    · simp only
      rw [hrec _ _ _ (hget _ hjv), satisfy_discrete (hv x hx.1)]
      simp [hxv]
    · intro q hq
      obtain ⟨m, hm, hqm⟩ := List.mem_iff_getElem.1 hq
      have hmv : m < vs'.length := by omega
      have hq' : q = (part vs'[m], ch[m]'(by omega)) := by
        have : ((vs'.map part).zip ch)[m]'(by simp; omega) = q := by
          simp only [hl]; rw [List.getElem_append_left hm]; exact hqm
        rw [← this]; simp
      subst hq'
      simp only
      rw [hrec _ _ _ (hget _ hmv), satisfy_discrete (hv x hx.1)]
      simp only [Except.ok.injEq, decide_eq_false_iff_not]
      rw [hxv]
      intro heq
      have := (List.Nodup.getElem_inj_iff hfo.nodup).1 heq
      omega
  · intro p hp x hx
    obtain ⟨m, hm, hpm⟩ := List.mem_iff_getElem.1 hp
    have hmv : m < vs'.length := by simp at hm; omega
    have hp' : p = (part vs'[m], ch[m]'(by omega)) := by rw [← hpm]; simp
    subst hp'
    simp only
    rw [hrec _ _ _ (hget _ hmv)]
    exact ⟨_, satisfy_discrete (disc_of_type hx ht)⟩
  · intro p hp
    obtain ⟨m, hm, hpm⟩ := List.mem_iff_getElem.1 hp
    have hmv : m < vs'.length := by simp at hm; omega
    have hp' : p = (part vs'[m], ch[m]'(by omega)) := by rw [← hpm]; simp
    subst hp'
    simp only
    rw [hrec _ _ _ (hget _ hmv)]
    exact hget _ hmv

/-! ## every tree the constructor returns is `Grown` -/

theorem type_of_attr {x : Inst F} {ts : List AttrType} (h : typesOf x = ts) {i : Nat} {a : Attr F}
    (ha : x.getAttribute i = .ok a) : ts[i]? = some (typeOf a) := by
  rw [typesOf_get h]
  simp only [Inst.getAttribute, atR_eq_ok] at ha
  rw [ha]; rfl

theorem grow_cond {param : Node.SubsetParam} {st : Bool} {fuel : Nat} {data : IList F} {c : Cond F}
    {n : Node F} (h : Node.grow param st fuel data c = .ok n) : n.cond = c := by
  cases fuel with
  | zero => cases h
  | succ fuel =>
    rw [Node.grow] at h
    simp only at h
    split at h
    · cases h; rfl
    · split at h
      · cases h; rfl
      · unfold Node.splitNode at h
        simp only [bind_ok_iff] at h
        obtain ⟨x0, _, is, _, s, _, h⟩ := h
        unfold Node.finish at h
        split at h
        · cases h; rfl
        · simp only [bind_ok_iff] at h
          obtain ⟨_, _, _, _, _, _, h⟩ := h
          cases h; rfl

theorem distinct_one_ne_nil {data : IList F} (h : data.getDistinctClassLabels.length = 1) :
    data ≠ [] := by
  rintro rfl; simp [IList.getDistinctClassLabels] at h

theorem grow_ne_nil {param : Node.SubsetParam} {fuel : Nat} {data : IList F} {c : Cond F}
    {n : Node F} (h : Node.grow param false fuel data c = .ok n) : data ≠ [] := by
  cases fuel with
  | zero => cases h
  | succ fuel =>
    rintro rfl
    simp [Node.grow, IList.getDistinctClassLabels, Node.splitNode, atR] at h

/-- continuous values are comparable -/
def DataOrd (ts : List AttrType) (data : IList F) : Prop :=
  ∀ x ∈ data, ∀ i, ts[i]? = some .continuous → Dbl.Ord (contValAt x i)

theorem childrenKind_ok [LawfulOrd F] {ts : List AttrType} {rec : IList F → Cond F → Res (Node F)}
    (hrec : ∀ p c n, rec p c = .ok n → n.cond = c) {data : IList F} {b : Node.Best F} {i : Nat}
    {a : Attr F} (hts : ∀ x ∈ data, typesOf x = ts) (ha : ts[i]? = some (typeOf a))
    (hord : DataOrd ts data) (hk : 0 ≤ b.k) (hb : typeOf a ≠ .binary)
    (htord : Dbl.Ord b.v ∨ ∀ p c n, rec p c = .ok n → p ≠ [])
    {ch : List (Node F)} (h : Node.childrenKind rec data b i a = .ok ch) :
    ∃ parts, ChildrenOk ts data ch parts ∧ ∀ p ∈ parts, rec p.1 p.2.cond = .ok p.2 := by
  unfold Node.childrenKind at h
  cases a with
  | indexed v j m =>
    simp only [Attr.isDiscreteIndexed, if_true, bind_ok_iff] at h
    obtain ⟨m', _, h⟩ := h
    exact childrenIndexed_ok hrec hts ha hk h
  | discrete v =>
    simp only [Attr.isDiscreteIndexed, Attr.isDiscrete, Bool.false_eq_true, if_false, if_true] at h
    exact childrenDiscrete_ok hrec hts ha h
  | continuous v =>
    simp only [Attr.isDiscreteIndexed, Attr.isDiscrete, Attr.isContinuous, Bool.false_eq_true,
      if_false, if_true] at h
    exact childrenContinuous_ok hrec hts ha htord (fun x hx => hord x hx i ha) h
  | binary v => exact absurd rfl hb

/-- the search never chooses a binary attribute -/
theorem searchStep_nonbinary {ts : List AttrType} {s s' : Node.Search F} {i : Nat}
    (hts : ∀ x ∈ s.data, typesOf x = ts)
    (hs : ∀ j, s.best.attr = some j → ts[j]? ≠ some .binary) (h : Node.searchStep s i = .ok s') :
    ∀ j, s'.best.attr = some j → ts[j]? ≠ some .binary := by
  have hcase : ∀ (o : Option Nat), (o = s.best.attr ∨ o = some i) → ts[i]? ≠ some .binary →
      ∀ j, o = some j → ts[j]? ≠ some .binary := by
    intro o ho hi j hj
    rcases ho with ho | ho
    · exact hs j (by rw [← ho]; exact hj)
    · rw [ho] at hj; cases hj; exact hi
  unfold Node.searchStep at h
  rw [bind_ok_iff] at h
  obtain ⟨x0, hx0, h⟩ := h
  rw [bind_ok_iff] at h
  obtain ⟨a, ha, h⟩ := h
  have hx0m : x0 ∈ s.data := List.mem_of_getElem? (by simpa using hx0)
  have hta := type_of_attr (hts x0 hx0m) ha
  unfold Node.searchKind at h
  cases a with
  | indexed v j m =>
    simp only [Attr.isDiscreteIndexed, if_true, bind_ok_iff] at h
    obtain ⟨m', _, h⟩ := h
    unfold Node.searchIndexed at h
    rw [bind_ok_iff] at h
    obtain ⟨r, hr, h⟩ := h
    cases h
    have := foldlM_keeps (P := fun st : DD × Node.Best F => st.2.attr = s.best.attr ∨ st.2.attr = some i)
      (by
        intro b a b' h1 hb
        rcases (indexedStep_best hb).1 with h2 | h2
        · rw [h2]; exact h1
        · exact .inr h2) _ _ _ hr (.inl rfl)
    exact hcase _ this (by rw [hta]; simp [typeOf])
  | discrete v =>
    simp only [Attr.isDiscreteIndexed, Attr.isDiscrete, Bool.false_eq_true, if_false, if_true] at h
    unfold Node.searchDiscrete at h
    rw [bind_ok_iff] at h
    obtain ⟨e, _, h⟩ := h
    cases h
    refine hcase _ ?_ (by rw [hta]; simp [typeOf])
    simp only; split <;> simp
  | continuous v =>
    simp only [Attr.isDiscreteIndexed, Attr.isDiscrete, Attr.isContinuous, Bool.false_eq_true,
      if_false, if_true] at h
    unfold Node.searchContinuous at h
    rw [bind_ok_iff] at h
    obtain ⟨sorted, hsort, h⟩ := h
    rw [bind_ok_iff] at h
    obtain ⟨r, hr, h⟩ := h
    cases h
    have := foldlM_keeps (P := fun st : Node.Sweep F => st.best.attr = s.best.attr ∨ st.best.attr = some i)
      (by
        intro b a b' h1 hb
        rcases (sweepStep_best hb).1 with h2 | h2
        · rw [h2]; exact h1
        · exact .inr h2) _ _ _ hr (.inl rfl)
    exact hcase _ this (by rw [hta]; simp [typeOf])
  | binary v =>
    simp only [Attr.isDiscreteIndexed, Attr.isDiscrete, Attr.isContinuous, Bool.false_eq_true,
      if_false] at h
    cases h; exact hs

theorem search_nonbinary {ts : List AttrType} {data : IList F} {n : Nat}
    (hts : ∀ x ∈ data, typesOf x = ts) {is : List Nat} {s s' : Node.Search F}
    (hi : ∀ i ∈ is, i < n) (hinv : SearchInv data n s)
    (hs : ∀ j, s.best.attr = some j → ts[j]? ≠ some .binary)
    (h : is.foldlM Node.searchStep s = .ok s') :
    ∀ j, s'.best.attr = some j → ts[j]? ≠ some .binary := by
  induction is generalizing s with
  | nil => cases h; exact hs
  | cons i is ih =>
    rw [List.foldlM_cons, bind_ok_iff] at h
    obtain ⟨s1, h1, h⟩ := h
    exact ih (fun j hj => hi j (by simp [hj])) (searchStep_inv (hi i (by simp)) hinv h1)
      (searchStep_nonbinary (fun x hx => hts x (hinv.perm.mem_iff.1 hx)) hs h1) h

theorem grow_grown [LawfulOrd F] {ts : List AttrType} {param : Node.SubsetParam}
    (hp : ValidParam param) : ∀ (fuel : Nat) (data : IList F) (c : Cond F) (n : Node F),
    (∀ x ∈ data, typesOf x = ts) → DataOrd ts data →
    Node.grow param false fuel data c = .ok n → Grown ts data n := by
  intro fuel
  induction fuel with
  | zero => intro data c n _ _ h; cases h
  | succ fuel ih =>
    intro data c n hts hord h
    have hne := grow_ne_nil h
    rw [Node.grow] at h
    simp only [Bool.false_eq_true, false_and, if_false, getClassLabels_eq] at h
    split at h
    · cases h; exact .leaf data c hne
    · unfold Node.splitNode at h
      simp only [bind_ok_iff] at h
      obtain ⟨x0, hx0, is, his, s, hs, h⟩ := h
      have hi := triedIndices_lt hp his
      have hinv0 : SearchInv data x0.attributeSize
          (⟨data, data.classDistribution, ⟨data.classDistribution.entropy, none, 0, Dbl.zero⟩⟩ : Node.Search F) :=
        ⟨List.Perm.refl _, le_refl _, by simp⟩
      have hinv := search_inv hi hinv0 hs
      have hnb := search_nonbinary hts hi hinv0 (by simp) hs
      have hts' : ∀ x ∈ s.data, typesOf x = ts := fun x hx => hts x (hinv.perm.mem_iff.1 hx)
      unfold Node.finish at h
      split at h
      · cases h; exact .leaf data c hne
      · rename_i i hbi
        simp only [bind_ok_iff] at h
        obtain ⟨y0, hy0, a, ha, ch, hch, h⟩ := h
        cases h
        have hta := type_of_attr (hts' y0 (List.mem_of_getElem? (by simpa using hy0))) ha
        obtain ⟨parts, hok, hrec⟩ := childrenKind_ok (fun p c n hn => grow_cond hn) hts' hta
          (fun x hx => hord x (hinv.perm.mem_iff.1 hx)) hinv.kpos
          (fun hbin => hnb i hbi (by rw [hta, hbin]))
          (.inr (fun p c n hn => grow_ne_nil hn)) hch
        have hmem : ∀ p ∈ parts, ∀ x ∈ p.1, x ∈ data := by
          intro p hp x hx
          exact hinv.perm.mem_iff.1 (hok.perm.mem_iff.1
            (List.mem_flatten.2 ⟨p.1, List.mem_map_of_mem hp, hx⟩))
        rw [hok.nodes]
        exact .split data c parts hne
          (fun p hp => ih p.1 _ p.2 (fun x hx => hts x (hmem p hp x hx))
            (fun x hx => hord x (hmem p hp x hx)) (hrec p hp))
          (hok.perm.trans hinv.perm) hok.route hok.defd

end
end Verif
