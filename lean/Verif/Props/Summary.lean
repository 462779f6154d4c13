import Verif.Props.DataSet
import Verif.Props.Instance
import Verif.Props.Partition
import Verif.Spec.Summary

/-! # Properties C160 (summary of a data set) and C161 (setting possible labels) -/

set_option linter.unusedSectionVars false

namespace Verif
open Dbl

variable {F : Type} [Dbl F]

/-! ## C160 -/

theorem foldl_joined (sep : String) : ∀ (rest : List String) (first : String),
    rest.foldl (fun r l => r ++ (sep ++ l)) first = joined sep (first :: rest) := by
  intro rest
  induction rest with
  | nil => intro first; rfl
  | cons a rest ih =>
    intro first
    rw [List.foldl_cons, ih, joined]
    cases rest with
    | nil => simp only [joined, String.append_assoc]
    | cons b rest => simp only [joined, String.append_assoc]

theorem joined_toList (sep : String) : ∀ l : List String, (joined sep l).toList = sep.toList.intercalate (l.map String.toList) := by
  intro l
  induction l with
  | nil => simp [joined, List.intercalate]
  | cons a l ih =>
    cases l with
    | nil => simp [joined, List.intercalate]
    | cons b l =>
      rw [joined, String.toList_append, String.toList_append, ih]
      simp [List.intercalate]

/-- **C160** the numbers reported: instances, distinct labels, attributes by kind -/
theorem C160_counts (ds : DataSet F) :
    ds.sampleSize = ds.instances.length ∧
    (∃ ls, IsFirstOccurrences (ds.instances.map Inst.label) ls ∧ ds.classCount = ls.length) ∧
    ds.attributeCount = ds.definition.types.length :=
  ⟨rfl, ⟨_, C07_distinct_class_labels _, C10_number_of_classes _⟩, rfl⟩

/-- **C160** (part) The list of classes of a data set with instances names each label once, in
order of first appearance; if no label contains a semicolon it can be taken apart again. -/
theorem C160_classes_partial (ds : DataSet F) (hne : ds.instances ≠ []) :
    ∃ ls s, IsFirstOccurrences (ds.instances.map Inst.label) ls ∧ ds.getClasses = .ok s ∧ s = joined ";" ls ∧
      ((∀ l ∈ ls, ';' ∉ l.toList) → s.toList.splitOn ';' = ls.map String.toList) := by
  have hfo := C07_distinct_class_labels ds.instances
  obtain ⟨first, rest, hl⟩ : ∃ a r, ds.instances.getDistinctClassLabels = a :: r := by
    cases h : ds.instances.getDistinctClassLabels with
    | cons a r => exact ⟨a, r, rfl⟩
    | nil =>
      obtain ⟨x, xs, hx⟩ := List.exists_cons_of_ne_nil hne
      have : x.label ∈ ds.instances.getDistinctClassLabels := by rw [hfo.mem_iff, hx]; simp
      rw [h] at this; cases this
  refine ⟨_, joined ";" (first :: rest), hfo, ?_, by rw [hl], ?_⟩
  · unfold DataSet.getClasses
    rw [hl]
    simp only [atR, List.getElem?_cons_zero, res_bind_ok, res_pure, List.drop_succ_cons, List.drop_zero]
    rw [← foldl_joined]
  · intro hsep
    rw [hl] at hsep ⊢
    rw [joined_toList]
    refine List.splitOn_intercalate ';' ?_ (by simp)
    intro l hmem
    obtain ⟨a, ha, rfl⟩ := List.mem_map.1 hmem
    exact hsep a ha

/-- **C160** (part) the description of a data set with instances -/
theorem C160_info_partial (ds : DataSet F) (name : String) (hne : ds.instances ≠ []) :
    ∃ ls, IsFirstOccurrences (ds.instances.map Inst.label) ls ∧ ds.info name = .ok (joined "\n" [
      "DATASET: " ++ name,
      "Number of instances: " ++ toString ds.instances.length,
      "Number of distinct class labels: " ++ toString ls.length,
      "Number of attributes: " ++ toString ds.definition.types.length,
      "Number of discrete attributes: " ++
        toString (ds.definition.types.count .discrete + ds.definition.types.count .binary),
      "Number of continuous attributes: " ++ toString (ds.definition.types.count .continuous),
      "Class labels: " ++ joined ";" ls]) := by
  obtain ⟨ls, s, h1, h2, h3, _⟩ := C160_classes_partial ds hne
  refine ⟨ls, h1, ?_⟩
  obtain ⟨c1, c2, _⟩ := C28_counts ds.definition
  have hc : ds.classCount = ls.length := by
    obtain ⟨ls', h, e⟩ := (C160_counts ds).2.1
    rw [e]
    have : ls'.Perm ls := by
      rw [List.perm_ext_iff_of_nodup h.nodup h1.nodup]
      intro a; rw [h.mem_iff, h1.mem_iff]
    exact this.length_eq
  unfold DataSet.info
  simp only [h2, res_bind_ok, res_pure, hc, c1, c2, h3, DataSet.sampleSize, DataSet.attributeCount, DataDef.attributeCount, joined,
    String.append_assoc]

/-- **C160** (violated) a data set without instances cannot be described: the call throws -/
theorem C160_refuted (d : DataDef) (name : String) :
    (DataSet.ofDefinition d : DataSet F).getClasses = .error (.throw "out_of_range") ∧
    (DataSet.ofDefinition d : DataSet F).info name = .error (.throw "out_of_range") := ⟨rfl, rfl⟩

/-- **C160** the instances by class: each part holds the instances of one class in their order -/
theorem C160_class_instances (ds : DataSet F) :
    ∃ ls, IsFirstOccurrences (ds.instances.map Inst.label) ls ∧
      ds.getClassInstances = .ok (ls.map (fun c => ds.instances.filter (fun x => x.label == c))) := by
  obtain ⟨cs, ps, h1, h2, h3, _⟩ := C20_partition_by_class ds.instances
  exact ⟨cs, h1, by rw [← h3]; exact h2⟩

/-- a data set of three instances -/
def exSummary : DataSet XR :=
  ⟨[⟨"b", [.discrete "u", .continuous (.fin 1)], none⟩, ⟨"a", [.discrete "w", .continuous (.fin 1)], none⟩,
    ⟨"b", [.discrete "u", .continuous (.fin 2)], none⟩], ⟨[.discrete, .continuous], []⟩⟩

example : exSummary.instances ≠ [] ∧ exSummary.getClasses = .ok "b;a" ∧
    exSummary.getClassInstances.map (List.map List.length) = .ok [2, 1] := by decide +kernel

/-! ## C161 -/

/-- **C161** (violated) setting the possible labels of a composite instance does not replace the earlier ones -/
theorem C161_refuted : ¬ ∀ (x : Inst XR) (ls : List String), (x.setPossibleClassLabels ls).possibleLabels = ls := by
  intro h
  have := h ⟨"a", [], some ["a"]⟩ ["b"]
  revert this
  decide

/-- **C161** (part) The labels given are added to the earlier ones; they replace them exactly when
there were none. Class label and attributes stay. -/
theorem C161_set_possible_partial (x : Inst F) (old ls : List String) (hx : x.possible = some old) :
    (x.setPossibleClassLabels ls).possibleLabels = old ++ ls ∧
    ((x.setPossibleClassLabels ls).possibleLabels = ls ↔ old = []) ∧
    (x.setPossibleClassLabels ls).label = x.label ∧ (x.setPossibleClassLabels ls).attrs = x.attrs ∧
    (x.setPossibleClassLabels ls).isComposite = true := by
  refine ⟨by simp [Inst.setPossibleClassLabels, Inst.possibleLabels, hx], ?_, rfl, rfl, rfl⟩
  simp [Inst.setPossibleClassLabels, Inst.possibleLabels, hx]

example : (⟨"a", [], some ["a"]⟩ : Inst XR).possible = some ["a"] ∧
    ((⟨"a", [], some ["a"]⟩ : Inst XR).setPossibleClassLabels ["b", "c"]).possibleLabels = ["a", "b", "c"] := by decide

end Verif
