import Verif.Lemmas.Basic
import Verif.Spec.Encode
import Verif.Model.DblXR

/-! # Properties C01–C06: attributes and instances -/

set_option linter.unusedSectionVars false

namespace Verif
open Dbl
variable {F : Type} [Dbl F]

/-! ## helper facts -/

theorem onehot_loop (index : Int) (n : Nat) (r : List F) :
    (List.range n).foldl
      (fun r (i : Nat) => if (i : Int) ≠ index then r ++ [Dbl.zero] else r ++ [Dbl.one]) r =
    r ++ (List.range n).map (fun (j : Nat) => if (j : Int) = index then Dbl.one else Dbl.zero) := by
  induction n with
  | zero => simp
  | succ n ih =>
    rw [List.range_succ, List.foldl_append, ih, List.map_append, List.foldl_cons,
      List.foldl_nil]
    by_cases h : (n : Int) = index <;> simp [h]

theorem continuousAttributes_eq {a : Attr F} (h : NonNegMax a) :
    a.continuousAttributes = .ok (encodeAttr a) := by
  cases a with
  | indexed v i m =>
    have : ¬ m < 0 := by simpa [NonNegMax] using h
    simp only [Attr.continuousAttributes, this, if_false, encodeAttr]
    rw [onehot_loop]; simp
  | _ => rfl

/-! ## C01 -/

/-- **C01.** The encoding of an indexed attribute is the one-hot vector of its index: length
`m`, entry `j` is `1.0` iff `j = i`. -/
theorem C01_one_hot (v : String) (i m : Int) (hm : 0 ≤ m) :
    ∃ r : List F, (Attr.indexed v i m).continuousAttributes = .ok r ∧
      (r.length : Int) = m ∧ (Attr.indexed v i m : Attr F).continuousAttributeSize = m ∧
      ∀ j (hj : j < r.length), r[j] = if (j : Int) = i then (Dbl.one : F) else Dbl.zero := by
  refine ⟨encodeAttr (.indexed v i m), continuousAttributes_eq hm, ?_, rfl, ?_⟩
  · simp [encodeAttr]; omega
  · intro j hj
    simp [encodeAttr]

/-- **C01.** Exactly one entry is 1 when the index is in range, none when it is not (in any
arithmetic where `1.0` and `0.0` differ). -/
theorem C01_number_of_ones [DecidableEq F] (h10 : (Dbl.one : F) ≠ Dbl.zero)
    (v : String) (i m : Int) (r : List F)
    (h : (Attr.indexed v i m).continuousAttributes = .ok r) :
    r.count Dbl.one = if 0 ≤ i ∧ i < m then 1 else 0 := by
  by_cases hm : m < 0
  · simp [Attr.continuousAttributes, hm] at h
  · have hm' : 0 ≤ m := by omega
    rw [continuousAttributes_eq (a := .indexed v i m) hm'] at h
    cases h
    simp only [encodeAttr]
    have key : ∀ n : Nat, ((List.range n).map
        (fun j : Nat => if (j : Int) = i then (Dbl.one : F) else Dbl.zero)).count Dbl.one =
        if 0 ≤ i ∧ i < n then 1 else 0 := by
      intro n
      induction n with
      | zero => simp
      | succ n ih =>
        rw [List.range_succ, List.map_append, List.count_append, ih]
        by_cases hn : (n : Int) = i
        · have h1 : ¬ (0 ≤ i ∧ i < (n : Int)) := by omega
          have h2 : 0 ≤ i ∧ i < ((n + 1 : Nat) : Int) := by omega
          rw [if_neg h1, if_pos h2]; simp [hn]
        · have h3 : (0 ≤ i ∧ i < ((n + 1 : Nat) : Int)) ↔ (0 ≤ i ∧ i < (n : Int)) := by omega
          simp only [h3]
          simp [hn, Ne.symm h10]
    rw [key, Int.toNat_of_nonneg hm']

/-- negative maximum index: the call throws -/
theorem C01_negative (v : String) (i m : Int) (hm : m < 0) :
    (Attr.indexed v i m : Attr F).continuousAttributes = .error (.throw "length_error") := by
  simp [Attr.continuousAttributes, hm]

example : (Attr.indexed "b" 1 3 : Attr XR).continuousAttributes =
    .ok [.fin 0, .fin 1, .fin 0] := by decide +kernel
example : (Attr.indexed "?" (-1) 2 : Attr XR).continuousAttributes =
    .ok [.fin 0, .fin 0] := by decide +kernel
example : (Dbl.one : XR) ≠ Dbl.zero := by decide

/-! ## C02 -/

/-- **C02.** `continuousAttributes()`, `toVector()` and `continuousAttributeSize()` agree, and
the vector is the concatenation of the attributes' encodings in order. -/
theorem C02_continuous_view (x : Inst F) (h : ∀ a ∈ x.attrs, NonNegMax a) :
    x.continuousAttributes = .ok ((x.attrs.map encodeAttr).flatten) ∧
    x.toVector = .ok ((x.attrs.map encodeAttr).flatten) ∧
    x.continuousAttributeSize = (((x.attrs.map encodeAttr).flatten).length : Int) := by
  have key : ∀ (as : List (Attr F)) (r : List F), (∀ a ∈ as, NonNegMax a) →
      as.foldlM (fun r a => do
        let inserted ← a.continuousAttributes
        (pure (r ++ inserted) : Res (List F))) r = .ok (r ++ (as.map encodeAttr).flatten) := by
    intro as
    induction as with
    | nil => intro r _; simp
    | cons a as ih =>
      intro r h
      rw [List.foldlM_cons, continuousAttributes_eq (h a (by simp))]
      simp only [res_bind_ok, res_pure]
      have := ih (r ++ encodeAttr a) (fun b hb => h b (by simp [hb]))
      simp only [res_pure] at this
      rw [this]; simp
  have key2 : ∀ (as : List (Attr F)) (s : Int), (∀ a ∈ as, NonNegMax a) →
      as.foldl (fun s a => s + a.continuousAttributeSize) s =
      s + ((as.map encodeAttr).flatten.length : Int) := by
    intro as
    induction as with
    | nil => intro s _; simp
    | cons a as ih =>
      intro s h
      rw [List.foldl_cons, ih _ (fun b hb => h b (by simp [hb]))]
      have ha : a.continuousAttributeSize = ((encodeAttr a).length : Int) := by
        have := h a (by simp)
        cases a <;> simp [Attr.continuousAttributeSize, encodeAttr, NonNegMax] at *
        omega
      rw [ha]; simp; omega
  refine ⟨?_, ?_, ?_⟩
  · simpa [Inst.continuousAttributes] using key x.attrs [] h
  · simpa [Inst.toVector] using key x.attrs [] h
  · simpa [Inst.continuousAttributeSize] using key2 x.attrs 0 h

example : (⟨"c", [.continuous (.fin 5), .discrete "d", .indexed "v" 1 2, .binary "true"], none⟩ :
    Inst XR).continuousAttributes = .ok [.fin 5, .fin 0, .fin 1] := by decide +kernel

/-! ## C03 -/

/-- **C03.** `removeAttribute(i)`: defined exactly for valid positions, deletes that position,
keeps the rest in order, and touches neither label nor possible labels. -/
theorem C03_remove (x : Inst F) (i : Nat) :
    (i < x.attributeSize →
      ∃ y, x.removeAttribute i = .ok y ∧ y.attributeSize + 1 = x.attributeSize ∧
        (∀ j, j < i → y.getAttribute j = x.getAttribute j) ∧
        (∀ j, i ≤ j → y.getAttribute j = x.getAttribute (j + 1)) ∧
        y.label = x.label ∧ y.possible = x.possible) ∧
    (x.attributeSize ≤ i → x.removeAttribute i = .error (.ub "erase past the end")) := by
  constructor
  · intro h
    unfold Inst.attributeSize at h
    refine ⟨{ x with attrs := x.attrs.eraseIdx i }, by simp [Inst.removeAttribute, h], ?_, ?_, ?_,
      rfl, rfl⟩
    · simp [Inst.attributeSize, List.length_eraseIdx, h]; omega
    · intro j hj
      simp [Inst.getAttribute, atR, List.getElem?_eraseIdx, hj]
    · intro j hj
      have : ¬ j < i := by omega
      simp [Inst.getAttribute, atR, List.getElem?_eraseIdx, this]
  · intro h
    unfold Inst.attributeSize at h
    simp [Inst.removeAttribute, Nat.not_lt.2 h]

/-- **C03.** `addAttribute(a)` appends `a` at the end and keeps everything else. -/
theorem C03_add (x : Inst F) (a : Attr F) :
    (x.addAttribute a).attributeSize = x.attributeSize + 1 ∧
    (x.addAttribute a).getAttribute x.attributeSize = .ok a ∧
    (∀ j, j < x.attributeSize → (x.addAttribute a).getAttribute j = x.getAttribute j) ∧
    (x.addAttribute a).label = x.label ∧ (x.addAttribute a).possible = x.possible := by
  refine ⟨by simp [Inst.addAttribute, Inst.attributeSize], ?_, ?_, rfl, rfl⟩
  · simp [Inst.addAttribute, Inst.attributeSize, Inst.getAttribute]
  · intro j hj
    unfold Inst.attributeSize at hj
    simp [Inst.addAttribute, Inst.getAttribute, atR, List.getElem?_append_left hj]

/-- **C03.** `addVectorAttribute(v)` appends the components of `v` as continuous attributes. -/
theorem C03_addVector (x : Inst F) (v : List F) :
    (x.addVectorAttribute v).attrs = x.attrs ++ v.map .continuous ∧
    (x.addVectorAttribute v).label = x.label := by
  unfold Inst.addVectorAttribute
  induction v generalizing x with
  | nil => simp
  | cons d v ih =>
    have := ih (x.addAttribute (.continuous d))
    simp only [List.foldl_cons]
    rw [this.1, this.2]
    simp [Inst.addAttribute]

/-- the calls that change the attributes of an instance -/
inductive AttrEdit (F : Type) where
  | add (a : Attr F)
  | addVector (v : List F)
  | remove (i : Nat)
  | removeAll

/-- the call -/
def AttrEdit.call (x : Inst F) : AttrEdit F → Res (Inst F)
  | .add a => .ok (x.addAttribute a)
  | .addVector v => .ok (x.addVectorAttribute v)
  | .remove i => x.removeAttribute i
  | .removeAll => .ok x.removeAllAttributes

/-- what the call should do to the sequence of attributes (`none`: there is no position `i`) -/
def AttrEdit.meant {F : Type} (as : List (Attr F)) : AttrEdit F → Option (List (Attr F))
  | .add a => some (as ++ [a])
  | .addVector v => some (as ++ v.map .continuous)
  | .remove i => if i < as.length then some (as.take i ++ as.drop (i + 1)) else none
  | .removeAll => some []

/-- **C03.** Every sequence of edits: as long as only existing positions are removed, the attributes
are those the edits mean and nothing else of the instance changes; otherwise the behaviour is
undefined. -/
theorem C03_history (x : Inst F) (edits : List (AttrEdit F)) :
    (∀ as, edits.foldlM AttrEdit.meant x.attrs = some as →
      edits.foldlM AttrEdit.call x = .ok { x with attrs := as }) ∧
    (edits.foldlM AttrEdit.meant x.attrs = none → ∃ u, edits.foldlM AttrEdit.call x = .error (.ub u)) := by
  induction edits generalizing x with
  | nil => exact ⟨fun as h => by cases h; rfl, fun h => by cases h⟩
  | cons e edits ih =>
    have one : (∀ as, AttrEdit.meant x.attrs e = some as → AttrEdit.call x e = .ok { x with attrs := as }) ∧
        (AttrEdit.meant x.attrs e = none → ∃ u, AttrEdit.call x e = .error (.ub u)) := by
      cases e with
      | add a => exact ⟨fun as h => by cases h; rfl, fun h => by cases h⟩
      | removeAll => exact ⟨fun as h => by cases h; rfl, fun h => by cases h⟩
      | addVector v =>
        refine ⟨fun as h => ?_, fun h => by cases h⟩
        cases h
        have key : ∀ (v : List F) (x : Inst F), x.addVectorAttribute v = { x with attrs := x.attrs ++ v.map .continuous } := by
          intro v
          induction v with
          | nil => intro x; simp [Inst.addVectorAttribute]
          | cons d v ih =>
            intro x
            have := ih (x.addAttribute (.continuous d))
            unfold Inst.addVectorAttribute at this ⊢
            rw [List.foldl_cons, this]
            simp [Inst.addAttribute]
        exact congrArg Except.ok (key v x)
      | remove i =>
        simp only [AttrEdit.meant, AttrEdit.call, Inst.removeAttribute]
        by_cases hi : i < x.attrs.length
        · simp only [hi, if_true]
          refine ⟨fun as h => ?_, fun h => by cases h⟩
          cases h
          rw [List.eraseIdx_eq_take_drop_succ]
        · simp only [hi, if_false]
          exact ⟨fun as h => (by cases h), fun _ => ⟨_, rfl⟩⟩
    rw [List.foldlM_cons, List.foldlM_cons]
    cases hm : AttrEdit.meant x.attrs e with
    | none =>
      obtain ⟨u, hu⟩ := one.2 hm
      rw [hu]
      exact ⟨fun as h => (by cases h), fun _ => ⟨u, rfl⟩⟩
    | some as =>
      rw [one.1 as hm]
      exact ih { x with attrs := as }

example : [AttrEdit.add (.discrete "a"), .addVector [.fin 1, .fin 2], .remove 1].foldlM AttrEdit.call
    (⟨"c", [], none⟩ : Inst XR) = .ok ⟨"c", [.discrete "a", .continuous (.fin 2)], none⟩ :=
  (C03_history _ _).1 _ rfl

example : ((⟨"c", [.discrete "a", .discrete "b", .discrete "d"], none⟩ : Inst XR).removeAttribute 1)
    = .ok ⟨"c", [.discrete "a", .discrete "d"], none⟩ := by decide

/-! ## C04, C05 -/

theorem subset_loop (x : Inst F) : ∀ (s : List Nat) (r : Inst F), (∀ f ∈ s, f < x.attrs.length) →
    s.foldlM (fun r f => do
      let a ← atR x.attrs f
      (pure (r.addAttribute a) : Res (Inst F))) r =
    .ok { r with attrs := r.attrs ++ s.filterMap (fun f => x.attrs[f]?) } := by
  intro s
  induction s with
  | nil => intro r _; simp
  | cons f s ih =>
    intro r h
    have hf : f < x.attrs.length := h f (by simp)
    rw [List.foldlM_cons, atR_ok_of_lt hf]
    simp only [res_bind_ok, res_pure]
    have := ih (r.addAttribute x.attrs[f]) (fun g hg => h g (by simp [hg]))
    simp only [res_pure] at this
    rw [this]
    simp [Inst.addAttribute, hf]

/-- **C04.** Projection on a list of valid positions: attribute `k` of the result is the
attribute at the `k`-th listed position, the class label is kept. -/
theorem C04_subset_valid (x : Inst F) (s : List Nat) (h : ∀ f ∈ s, f < x.attributeSize) :
    ∃ y, x.getSubSetOfFeatures s = .ok y ∧ y.label = x.label ∧ y.attributeSize = s.length ∧
      ∀ k (hk : k < s.length), y.getAttribute k = x.getAttribute s[k] := by
  refine ⟨_, subset_loop x s _ h, rfl, ?_, ?_⟩
  · have : ∀ s : List Nat, (∀ f ∈ s, f < x.attrs.length) →
        (s.filterMap (fun f => x.attrs[f]?)).length = s.length := by
      intro s
      induction s with
      | nil => simp
      | cons f s ih =>
        intro h
        have hf := h f (by simp)
        simp [hf, ih (fun g hg => h g (by simp [hg]))]
    simpa [Inst.attributeSize] using this s h
  · intro k hk
    have : ∀ (s : List Nat), (∀ f ∈ s, f < x.attrs.length) → ∀ k (hk : k < s.length),
        (s.filterMap (fun f => x.attrs[f]?))[k]? = x.attrs[s[k]]? := by
      intro s
      induction s with
      | nil => intro _ k hk; simp at hk
      | cons f s ih =>
        intro h k hk
        have hf := h f (by simp)
        cases k with
        | zero => simp [hf]
        | succ k =>
          have := ih (fun g hg => h g (by simp [hg])) k (by simpa using hk)
          simpa [hf] using this
    simp [Inst.getAttribute, atR, this s h k hk]

/-- **C04.** An invalid position anywhere in the subset makes the call throw. -/
theorem C04_subset_invalid (x : Inst F) (s : List Nat) (h : ∃ f ∈ s, x.attributeSize ≤ f) :
    x.getSubSetOfFeatures s = .error (.throw "out_of_range") := by
  have : ∀ (s : List Nat) (r : Inst F), (∃ f ∈ s, x.attrs.length ≤ f) →
      s.foldlM (fun r f => do
        let a ← atR x.attrs f
        (pure (r.addAttribute a) : Res (Inst F))) r = .error (.throw "out_of_range") := by
    intro s
    induction s with
    | nil => rintro r ⟨f, hf, _⟩; simp at hf
    | cons g s ih =>
      rintro r ⟨f, hf, hlt⟩
      rw [List.foldlM_cons]
      by_cases hg : g < x.attrs.length
      · rw [atR_ok_of_lt hg]
        simp only [res_bind_ok, res_pure]
        have hfs : f ∈ s := by
          rcases List.mem_cons.1 hf with rfl | hf
          · omega
          · exact hf
        exact ih _ ⟨f, hfs, hlt⟩
      · have : atR x.attrs g = .error (.throw "out_of_range") := by
          simp [atR, List.getElem?_eq_none (Nat.not_lt.1 hg)]
        rw [this]; rfl
  exact this s _ h

example : ((⟨"c", [.discrete "a", .discrete "b", .discrete "d"], none⟩ : Inst XR).getSubSetOfFeatures
    [2, 0]) = .ok ⟨"c", [.discrete "d", .discrete "a"], none⟩ := by decide
example : ((⟨"c", [.discrete "a"], none⟩ : Inst XR).getSubSetOfFeatures [0, 1])
    = .error (.throw "out_of_range") := by decide

/-- Every projected instance is a plain instance with the same label. -/
theorem subset_plain (x : Inst F) (s : List Nat) (y : Inst F)
    (h : x.getSubSetOfFeatures s = .ok y) : y.possible = none ∧ y.label = x.label := by
  have : ∀ (s : List Nat) (r y : Inst F), s.foldlM (fun r f => do
        let a ← atR x.attrs f
        (pure (r.addAttribute a) : Res (Inst F))) r = .ok y →
      y.possible = r.possible ∧ y.label = r.label := by
    intro s
    induction s with
    | nil => intro r y h; cases h; exact ⟨rfl, rfl⟩
    | cons f s ih =>
      intro r y h
      rw [List.foldlM_cons] at h
      cases ha : atR x.attrs f with
      | error e => rw [ha] at h; cases h
      | ok a => rw [ha] at h; exact ih (r.addAttribute a) y h
  exact this s _ y h

/-- **C05 refuted.** A composite instance loses its possible labels when projected. -/
theorem C05_refuted : ¬ ∀ (x : Inst XR) (s : List Nat) (y : Inst XR), x.isComposite = true →
    x.getSubSetOfFeatures s = .ok y →
    y.isComposite = true ∧ y.possibleLabels = x.possibleLabels := by
  intro h
  have := h ⟨"a", [.discrete "v"], some ["a", "b"]⟩ [0] ⟨"a", [.discrete "v"], none⟩ rfl
    (by decide)
  exact absurd this.1 (by decide)

/-- **C05 (partial).** What remains true: the projection keeps the possible labels exactly
when these are the class label alone, as for every plain instance. -/
theorem C05_partial (x : Inst F) (s : List Nat) (y : Inst F)
    (h : x.getSubSetOfFeatures s = .ok y) :
    y.possibleLabels = x.possibleLabels ↔ x.possibleLabels = [x.label] := by
  obtain ⟨hp, hl⟩ := subset_plain x s y h
  simp only [Inst.possibleLabels, hp, hl]
  exact eq_comm

/-! ## C06 -/

/-- **C06 refuted.** The constructor of a composite instance drops the first label from the
possible labels, so the actual class need not be possible. -/
theorem C06_refuted : ¬ ∀ (ls : List String) (x : Inst XR), Inst.ofPossible ls = .ok x →
    x.label ∈ x.possibleLabels := by
  intro h
  have := h ["a", "b"] ⟨"a", [], some ["b"]⟩ rfl
  exact absurd this (by decide)

/-- **C06 (partial).** The actual class is possible exactly when it is listed again after the
first position. -/
theorem C06_partial (c : String) (rest : List String) :
    ∃ x : Inst F, Inst.ofPossible (c :: rest) = .ok x ∧ x.label = c ∧
      x.possibleLabels = rest ∧ (x.label ∈ x.possibleLabels ↔ c ∈ rest) :=
  ⟨⟨c, [], some rest⟩, rfl, rfl, rfl, Iff.rfl⟩

end Verif
