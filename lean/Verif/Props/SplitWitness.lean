import Verif.Spec.DataSet
import Verif.Spec.ModelFiles

/-! # A `split` that meets the contract of C31, C111 and C148

`StringUtils::split` is not in /repo; theorems take it as a parameter. This is one
implementation (fields are the maximal runs of characters other than the separator). -/

namespace Verif

/-- fields of a text; `acc` is the beginning of the current field -/
def fieldsOf (c : Char) (acc : List Char) : List Char → List (List Char)
  | [] => if acc = [] then [] else [acc]
  | x :: xs =>
    if x = c then (if acc = [] then fieldsOf c [] xs else acc :: fieldsOf c [] xs)
    else fieldsOf c (acc ++ [x]) xs

/-- `StringUtils::split(s, sep)` for a separator of one character -/
def plainSplit (s sep : String) : List String :=
  match sep.toList with
  | [c] => (fieldsOf c [] s.toList).map String.ofList
  | _ => [s]

theorem fieldsOf_append (c : Char) (w rest : List Char) (h : c ∉ w) (acc : List Char) :
    fieldsOf c acc (w ++ rest) = fieldsOf c (acc ++ w) rest := by
  induction w generalizing acc with
  | nil => simp
  | cons x w ih =>
    rw [List.mem_cons, not_or] at h
    rw [List.cons_append, fieldsOf, if_neg (Ne.symm h.1), ih h.2]
    simp

theorem fieldsOf_join (c : Char) (fields : List String) (h : ∀ f ∈ fields, f ≠ "" ∧ c ∉ f.toList) :
    (fieldsOf c [] (joinWith (String.ofList [c]) fields).toList).map String.ofList = fields := by
  induction fields with
  | nil => rfl
  | cons a l ih =>
    have ha := h a (by simp)
    have hne : a.toList ≠ [] := fun e => ha.1 (String.toList_eq_nil_iff.1 e)
    cases l with
    | nil =>
      have := fieldsOf_append c a.toList [] ha.2 []
      rw [List.append_nil, List.nil_append] at this
      rw [joinWith, this, fieldsOf, if_neg hne]
      simp
    | cons b l =>
      rw [joinWith, String.toList_append, String.toList_append, List.append_assoc,
        fieldsOf_append c _ _ ha.2, List.nil_append, String.toList_ofList, List.singleton_append,
        fieldsOf, if_pos rfl, if_neg hne, List.map_cons, ih (fun f hf => h f (by simp [hf]))]
      simp

/-- the contract of `split` can be met, for every separator -/
theorem plainSplit_splits (c : Char) : SplitsAt plainSplit c := by
  intro fields _ h
  simp only [plainSplit, String.toList_ofList]
  exact fieldsOf_join c fields h

theorem plainSplit_commas : SplitsCommas plainSplit := plainSplit_splits ','

theorem plainSplit_empty : plainSplit "" "," = [] := rfl

theorem plainSplit_words : SplitsWords (fun s => plainSplit s " ") := by
  intro ws hne h
  refine plainSplit_splits ' ' ws hne (fun f hf => ⟨(h f hf).1, fun hc => ?_⟩)
  have := (h f hf).2 ' ' hc
  simp [isBlank] at this

example : plainSplit "4,red,,yes" "," = ["4", "red", "yes"] := by decide +kernel

end Verif
