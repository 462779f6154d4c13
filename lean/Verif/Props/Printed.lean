import Verif.Model.Printed
import Verif.Props.Summary
import Verif.Model.DblXR
import Verif.Model.DblReal

/-! # Property C227: the short descriptions -/

set_option linter.unusedSectionVars false

namespace Verif
open Dbl

/-! ## a neighbour and its distance -/

/-- **C227** (violated) the text of a neighbour does not tell its distance: distances 2 and 5/2 give the same text, and for a distance of 128
the behaviour is undefined -/
theorem C227_distance_refuted : ∃ (x : Inst XR),
    knnText x (.fin 2) = knnText x (.fin (5 / 2)) ∧ (∃ t, knnText x (.fin 2) = .ok t) ∧
    knnText x (.fin 128) = .error (.ub "double to char") ∧ knnText x .nan = .error (.ub "double to char") := by
  refine ⟨⟨"a", [], none⟩, by decide +kernel, ⟨_, rfl⟩, by decide +kernel, by decide +kernel⟩

theorem find_floor (d : ℝ) (hd : 0 ≤ d) : ∀ n : Nat, 0 < n → d < n →
    (List.range n).reverse.find? (fun k => (Dbl.ofNat k : ℝ) <=. d) = some ⌊d⌋₊
  | 0, h, _ => absurd h (by simp)
  | n + 1, _, hn => by
    rw [List.range_succ, List.reverse_append, List.reverse_cons, List.reverse_nil, List.nil_append, List.singleton_append,
      List.find?_cons]
    by_cases h : (n : ℝ) ≤ d
    · have e : ⌊d⌋₊ = n := by
        rw [Nat.floor_eq_iff hd]
        exact ⟨h, by exact_mod_cast hn⟩
      have : ((Dbl.ofNat n : ℝ) <=. d) = true := by
        simp only [le_real, ofNat_real, decide_eq_true_eq]; exact h
      rw [this, e]
    · have : ((Dbl.ofNat n : ℝ) <=. d) = false := by
        simp only [le_real, ofNat_real, decide_eq_false_iff_not]; exact h
      rw [this]
      have h' := not_le.1 h
      have hn0 : 0 < n := by
        rcases Nat.eq_zero_or_pos n with e | e
        · subst e; simp at h'; linarith
        · exact e
      exact find_floor d hd n hn0 h'

/-- **C227** (part) What the text of a neighbour with a distance from 0 to below 128 tells is the class and the whole part of the distance;
from 128 on the behaviour is undefined. -/
theorem C227_distance_partial (x : Inst ℝ) (d : ℝ) (h0 : 0 ≤ d) :
    (d < 128 → knnText x d = .ok (x.label ++ " ", (⌊d⌋₊ : Int))) ∧
    (128 ≤ d → knnText x d = .error (.ub "double to char")) := by
  have e0 : ((Dbl.zero : ℝ) <=. d) = true := by simp only [le_real, zero_real, decide_eq_true_eq]; exact h0
  unfold knnText toCharCode
  rw [if_pos e0]
  constructor
  · intro h
    have e1 : (d <. (Dbl.ofInt 128 : ℝ)) = true := by
      simp only [lt_real, ofInt_real, decide_eq_true_eq]; push_cast; exact h
    rw [if_pos e1, find_floor d h0 128 (by norm_num) (by exact_mod_cast h)]
    rfl
  · intro h
    have e1 : ¬ (d <. (Dbl.ofInt 128 : ℝ)) = true := by
      simp only [lt_real, ofInt_real, decide_eq_true_eq]; push_cast; exact not_lt.2 h
    rw [if_neg e1]
    rfl

/-- **C227** (part) A distance that is negative (the constructor of a neighbour takes any number): its fraction is dropped towards zero, and from
-129 downwards the behaviour is undefined. -/
theorem C227_negative_distance_partial (x : Inst ℝ) (d : ℝ) (h0 : d < 0) :
    (-129 < d → knnText x d = .ok (x.label ++ " ", ⌈d⌉)) ∧
    (d ≤ -129 → knnText x d = .error (.ub "double to char")) := by
  have e0 : ¬ ((Dbl.zero : ℝ) <=. d) = true := by simp only [le_real, zero_real, decide_eq_true_eq]; exact not_le.2 h0
  unfold knnText toCharCode
  rw [if_neg e0]
  constructor
  · intro h
    have e1 : ((Dbl.ofInt (-129) : ℝ) <. d) = true := by
      simp only [lt_real, ofInt_real, decide_eq_true_eq]; push_cast; exact h
    have ef : (fun k => d <=. Dbl.neg (Dbl.ofNat k : ℝ)) = (fun k => (Dbl.ofNat k : ℝ) <=. -d) := by
      funext k
      simp only [le_real, neg_real, decide_eq_decide]
      exact ⟨fun h => by linarith, fun h => by linarith⟩
    rw [if_pos e1, ef, find_floor (-d) (by linarith) 129 (by norm_num) (by push_cast; linarith)]
    have ec : -((⌊-d⌋₊ : Nat) : Int) = ⌈d⌉ := by
      rw [Int.natCast_floor_eq_floor (by linarith : (0 : ℝ) ≤ -d), Int.floor_neg, neg_neg]
    simp only [ec]
    rfl
  · intro h
    have e1 : ¬ ((Dbl.ofInt (-129) : ℝ) <. d) = true := by
      simp only [lt_real, ofInt_real, decide_eq_true_eq]; push_cast; exact not_lt.2 h
    rw [if_neg e1]
    rfl

/-- one and a half below zero gives the character of code -1 -/
example : knnText (⟨"a", [], none⟩ : Inst XR) (.fin (-3 / 2)) = .ok ("a ", -1) ∧
    knnText (⟨"a", [], none⟩ : Inst XR) (.fin (-257 / 2)) = .ok ("a ", -128) := by
  constructor <;> decide +kernel

/-- **C227** (part) Two neighbours at whole distances below 128 have the same text exactly when class and distance are the same. -/
theorem C227_whole_distances_partial (x y : Inst ℝ) (m k : Nat) (hm : m < 128) (hk : k < 128) :
    knnText x (m : ℝ) = knnText y (k : ℝ) ↔ x.label = y.label ∧ m = k := by
  rw [(C227_distance_partial x (m : ℝ) (Nat.cast_nonneg m)).1 (by exact_mod_cast hm),
    (C227_distance_partial y (k : ℝ) (Nat.cast_nonneg k)).1 (by exact_mod_cast hk), Nat.floor_natCast, Nat.floor_natCast]
  constructor
  · intro h
    injection h with h
    injection h with h1 h2
    refine ⟨?_, by exact_mod_cast h2⟩
    have := congrArg String.toList h1
    simp only [String.toList_append, List.append_cancel_right_eq] at this
    exact String.toList_inj.1 this
  · rintro ⟨h1, rfl⟩
    rw [h1]

/-! ## a data set -/

variable {F : Type} [Dbl F]

/-- **C227** (violated) the text of a data set does not tell its numbers: eleven instances with one attribute and one instance with eleven
attributes have the same text -/
theorem C227_text_refuted : ∃ (a b : DataSet XR) (name : String), a.text name = b.text name ∧ a.sampleSize = 11 ∧ a.attributeCount = 1 ∧
    b.sampleSize = 1 ∧ b.attributeCount = 11 := by
  refine ⟨⟨List.replicate 11 ⟨"c", [.continuous (.fin 0)], none⟩, ⟨[.continuous], []⟩⟩,
    ⟨[⟨"c", .continuous (.fin 0) :: List.replicate 10 (.indexed "v" 0 1), none⟩], ⟨.continuous :: List.replicate 10 .discreteIndexed, []⟩⟩,
    "d", ?_, rfl, rfl, rfl, rfl⟩
  decide +kernel

theorem digit_text {m k : Nat} (hm : m < 10) (hk : k < 10) : (toString m).toList.length = 1 ∧
    ((toString m).toList = (toString k).toList → m = k) := by
  have h : ∀ a b : Fin 10, (toString a.val).toList.length = 1 ∧ ((toString a.val).toList = (toString b.val).toList → a.val = b.val) := by
    decide +kernel
  exact h ⟨m, hm⟩ ⟨k, hk⟩

/-- **C227** (part) Two data sets in which all the numbers have one digit, under the same name, have the same text exactly when they agree in the
number of instances, of distinct classes, of attributes, of discrete and of continuous attributes. -/
theorem C227_text_partial (a b : DataSet F) (name : String)
    (ha : a.sampleSize < 10 ∧ a.attributeCount < 10) (hb : b.sampleSize < 10 ∧ b.attributeCount < 10) :
    a.text name = b.text name ↔ a.instances.length = b.instances.length ∧ a.classCount = b.classCount ∧
      a.definition.types.length = b.definition.types.length ∧
      a.definition.types.count .discrete + a.definition.types.count .binary =
        b.definition.types.count .discrete + b.definition.types.count .binary ∧
      a.definition.types.count .continuous = b.definition.types.count .continuous := by
  obtain ⟨a1, a2, _⟩ := C28_counts a.definition
  obtain ⟨b1, b2, _⟩ := C28_counts b.definition
  have small : ∀ ds : DataSet F, ds.sampleSize < 10 ∧ ds.attributeCount < 10 →
      ds.classCount < 10 ∧ ds.definition.types.count .discrete + ds.definition.types.count .binary < 10 ∧
      ds.definition.types.count .continuous < 10 := by
    rintro ds ⟨h1, h2⟩
    refine ⟨?_, ?_, ?_⟩
    · obtain ⟨ls, hl, e⟩ := (C160_counts ds).2.1
      rw [e]
      have : ls.length ≤ (ds.instances.map Inst.label).length :=
        (List.subperm_of_subset hl.nodup (fun c hc => (hl.mem_iff c).1 hc)).length_le
      rw [List.length_map] at this
      exact lt_of_le_of_lt this h1
    · refine lt_of_le_of_lt ?_ h2
      show _ ≤ ds.definition.types.length
      induction ds.definition.types with
      | nil => simp
      | cons t l ih =>
        cases t <;> simp <;> omega
    · exact lt_of_le_of_lt List.count_le_length h2
  obtain ⟨a3, a4, a5⟩ := small a ha
  obtain ⟨b3, b4, b5⟩ := small b hb
  unfold DataSet.text
  rw [a1, a2, b1, b2]
  constructor
  · intro h
    have h := congrArg String.toList h
    simp only [String.toList_append, List.append_assoc, List.append_cancel_left_eq] at h
    have cut : ∀ {m k : Nat} {l l' : List Char}, m < 10 → k < 10 → (toString m).toList ++ l = (toString k).toList ++ l' → m = k ∧ l = l' := by
      intro m k l l' hm hk e
      obtain ⟨e1, e2⟩ := List.append_inj e (by rw [(digit_text hm hk).1, (digit_text hk hm).1])
      exact ⟨(digit_text hm hk).2 e1, e2⟩
    obtain ⟨h1, h⟩ := cut ha.1 hb.1 h
    obtain ⟨h2, h⟩ := cut a3 b3 h
    obtain ⟨h3, h⟩ := cut ha.2 hb.2 h
    obtain ⟨h4, h⟩ := cut a4 b4 h
    exact ⟨h1, h2, h3, h4, (digit_text a5 b5).2 h⟩
  · rintro ⟨h1, h2, h3, h4, h5⟩
    have e1 : a.sampleSize = b.sampleSize := h1
    have e3 : a.attributeCount = b.attributeCount := h3
    rw [e1, h2, e3, h4, h5]

/-- the data set of C160's example meets the hypotheses -/
example : exSummary.sampleSize < 10 ∧ exSummary.attributeCount < 10 ∧ exSummary.text "d" = "d32211" := by decide +kernel

/-- a neighbour at distance 7/2 -/
example : knnText (⟨"a", [], none⟩ : Inst XR) (.fin (7 / 2)) = .ok ("a ", 3) := by decide +kernel

/-- a distance just below zero is cut to 0, one of -200 is undefined -/
example : knnText (⟨"a", [], none⟩ : Inst XR) (.fin (-1 / 2)) = .ok ("a ", 0) ∧
    knnText (⟨"a", [], none⟩ : Inst XR) (.fin (-200)) = .error (.ub "double to char") := by decide +kernel

end Verif
