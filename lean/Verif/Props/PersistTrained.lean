import Verif.Props.Persist
import Verif.Props.NaiveBayes
import Verif.Model.DblXR

/-! # Trained models are restored: dummy classifier and naive Bayes -/

set_option linter.unusedSectionVars false

namespace Verif
open Dbl

variable {F : Type} [Dbl F]

theorem insert_sum (m : Counter) (hm : OMap.Sorted m) (k : String) (v : Nat) :
    ((OMap.insert m k v).map Prod.snd).sum + Counter.count m k = (m.map Prod.snd).sum + v := by
  induction m with
  | nil => simp [OMap.insert, Counter.count]
  | cons p m ih =>
    have hs : OMap.Sorted m := (List.pairwise_cons.mp hm).2
    have hlt : ∀ x ∈ OMap.keys m, p.1 < x := (List.pairwise_cons.mp hm).1
    obtain ⟨k', v'⟩ := p
    simp only [OMap.insert, Counter.count, OMap.find?_cons]
    by_cases h1 : k = k'
    · simp [h1]
      omega
    · rw [if_neg h1, if_neg h1]
      by_cases h2 : k < k'
      · rw [if_pos h2]
        have : OMap.find? m k = none := by
          rw [OMap.find?_eq_none_iff]
          intro hk
          exact lt_asymm h2 (hlt k hk)
        simp [this]
        omega
      · rw [if_neg h2]
        have := ih hs
        simp only [Counter.count] at this
        simp only [List.map_cons, List.sum_cons]
        omega

theorem proper_addItem {d : DD} (h : d.Proper) (k : String) : (d.addItem k).Proper := by
  refine ⟨OMap.sorted_insert h.1 _ _, ?_⟩
  have := insert_sum d.m h.1 k (Counter.count d.m k + 1)
  have hs := h.2
  simp only [DD.addItem, Counter.put]
  omega

theorem proper_distribution (l : IList F) : l.classDistribution.Proper := by
  rw [classDistribution_eq]
  have : ∀ (ls : List String) (d : DD), d.Proper →
      (ls.foldl (fun d k => d.addItem k) d).Proper := by
    intro ls
    induction ls with
    | nil => intro d h; exact h
    | cons k ls ih => intro d h; exact ih _ (proper_addItem h k)
  have h0 : DD.empty.Proper := ⟨List.Pairwise.nil, rfl⟩
  exact this _ _ h0

/-- **C130**: a dummy classifier trained on any list whose labels are words is restored. -/
theorem C130_trained_dummy_restored (T : Txt F) (L : MathLib F) (hL : LibOk T L) (l : IList F)
    (hw : ∀ x ∈ l, Word x.label) :
    ∃ d i, dummyRead L (In.ofText (dummyText L l.classDistribution)) = .ok (d, i) ∧
      (∀ x : Inst F, dummyPredict d x = dummyPredict l.classDistribution x) ∧
      (dummyProbability d : OMap F) = dummyProbability l.classDistribution := by
  obtain ⟨i, e⟩ := C130_dummy_restored T L hL _ (proper_distribution l) (fun k hk => by
    rw [(C10_class_distribution l).mem_items] at hk
    obtain ⟨x, hx, rfl⟩ := List.mem_map.mp hk
    exact hw x hx)
  exact ⟨_, i, e, fun _ => rfl, rfl⟩

theorem sorted_emplace {V : Type} {m : OMap V} (h : OMap.Sorted m) (k : String) (v : V) :
    OMap.Sorted (m.emplace k v) := by
  unfold OMap.emplace
  split
  · exact h
  · exact OMap.sorted_insert h k v

theorem mem_keys_emplace {V : Type} (m : OMap V) (k : String) (v : V) (x : String) :
    x ∈ OMap.keys (m.emplace k v) ↔ x = k ∨ x ∈ OMap.keys m := by
  unfold OMap.emplace
  split
  · rename_i w hw
    constructor
    · exact .inr
    · rintro (rfl | h)
      · exact (OMap.find?_isSome_iff m _).mp (by rw [hw]; rfl)
      · exact h
  · exact OMap.mem_keys_insert m k v x

/-- means and deviations have the same keys after training on numeric attributes -/
theorem contClass_keys (ps : List (String × IList F)) : ∀ (m m' : NaiveBayes F),
    OMap.Sorted m.classMeans → OMap.Sorted m.classDeviations →
    ps.foldlM NaiveBayes.contClass m = .ok m' →
    OMap.Sorted m'.classMeans ∧ OMap.Sorted m'.classDeviations ∧ m'.prior = m.prior ∧
    m'.classAttributeDistributions = m.classAttributeDistributions ∧
    (∀ k, k ∈ OMap.keys m'.classMeans ↔ k ∈ ps.map Prod.fst ∨ k ∈ OMap.keys m.classMeans) ∧
    (∀ k, k ∈ OMap.keys m'.classDeviations ↔
      k ∈ ps.map Prod.fst ∨ k ∈ OMap.keys m.classDeviations) := by
  induction ps with
  | nil =>
    intro m m' h1 h2 h
    cases h
    exact ⟨h1, h2, rfl, rfl, by simp, by simp⟩
  | cons p ps ih =>
    intro m m' h1 h2 h
    rw [List.foldlM_cons] at h
    obtain ⟨m1, e1, e2⟩ := bind_ok_iff.mp h
    unfold NaiveBayes.contClass at e1
    obtain ⟨a, _, e1⟩ := bind_ok_iff.mp e1
    obtain ⟨av, _, e1⟩ := bind_ok_iff.mp e1
    obtain ⟨s, _, e1⟩ := bind_ok_iff.mp e1
    obtain ⟨sv, _, e1⟩ := bind_ok_iff.mp e1
    cases e1
    obtain ⟨a1, a2, a3, a4, a5, a6⟩ := ih _ m' (sorted_emplace h1 _ _) (sorted_emplace h2 _ _) e2
    refine ⟨a1, a2, a3, a4, fun k => ?_, fun k => ?_⟩
    · rw [a5, mem_keys_emplace, List.map_cons, List.mem_cons]
      tauto
    · rw [a6, mem_keys_emplace, List.map_cons, List.mem_cons]
      tauto

theorem sorted_keys_eq {l l' : List String} (h : l.Pairwise (· < ·)) (h' : l'.Pairwise (· < ·))
    (hm : ∀ k, k ∈ l ↔ k ∈ l') : l = l' := by
  have hp : l.Perm l' := by
    rw [List.perm_ext_iff_of_nodup (h.imp (fun h => ne_of_lt h)) (h'.imp (fun h => ne_of_lt h))]
    exact hm
  exact hp.eq_of_pairwise (le := (· < ·)) (fun a b _ _ h1 h2 => absurd h2 (lt_asymm h1)) h h'

/-- **C131**: a naive Bayes model trained on a list whose first attribute is not discrete, with
labels that are words and means and deviations that survive printing, is restored: the loaded
model makes the same predictions. -/
theorem C131_trained_naive_bayes_restored (T : Txt F) (L : MathLib F) (hL : LibOk T L) (l : IList F)
    (hw : ∀ x ∈ l, Word x.label) (m : NaiveBayes F) (ht : NaiveBayes.train NaiveBayes.new l = .ok m)
    (hc : m.classAttributeDistributions = [])
    (hm : ∀ p ∈ m.classMeans, ∀ x ∈ p.2, Survives T x)
    (hd : ∀ p ∈ m.classDeviations, ∀ x ∈ p.2, Survives T x) :
    ∃ m' i, NaiveBayes.read L NaiveBayes.new (In.ofText (m.text L)) = .ok (m', i) ∧
      ∀ x, m'.predict x = m.predict x := by
  have hcd := C10_class_distribution l
  have hfo := C07_distinct_class_labels l
  obtain ⟨ps, eps, hlen, _, _⟩ := labelled_classes l
  have hfst : (l.getDistinctClassLabels.zip ps).map Prod.fst = l.getDistinctClassLabels :=
    List.map_fst_zip (by omega)
  unfold NaiveBayes.train at ht
  rw [eps, res_bind_ok] at ht
  obtain ⟨p0, _, ht⟩ := bind_ok_iff.mp ht
  obtain ⟨x0, _, ht⟩ := bind_ok_iff.mp ht
  obtain ⟨a0, _, ht⟩ := bind_ok_iff.mp ht
  have hkeys : OMap.Sorted m.classMeans ∧ OMap.Sorted m.classDeviations ∧
      m.prior = l.classDistribution ∧
      (∀ k, k ∈ OMap.keys m.classMeans ↔ k ∈ l.getDistinctClassLabels) ∧
      (∀ k, k ∈ OMap.keys m.classDeviations ↔ k ∈ l.getDistinctClassLabels) := by
    by_cases hdis : a0.isDiscrete = true
    · -- the discrete version leaves a distribution for every class
      exfalso
      simp only [hdis, if_true] at ht
      have hpos : ∀ (qs : List (String × IList F)) (n n' : NaiveBayes F),
          qs.foldlM NaiveBayes.discClass n = .ok n' →
          ∀ k, k ∈ qs.map Prod.fst ∨ k ∈ OMap.keys n.classAttributeDistributions →
            k ∈ OMap.keys n'.classAttributeDistributions := by
        intro qs
        induction qs with
        | nil =>
          intro n n' h k hk
          cases h
          simpa using hk
        | cons q qs ih =>
          intro n n' h k hk
          rw [List.foldlM_cons] at h
          obtain ⟨n1, e1, e2⟩ := bind_ok_iff.mp h
          unfold NaiveBayes.discClass at e1
          obtain ⟨a, _, e1⟩ := bind_ok_iff.mp e1
          cases e1
          refine ih _ n' e2 k ?_
          rw [mem_keys_emplace]
          rw [List.map_cons, List.mem_cons] at hk
          tauto
      have hne : ps ≠ [] := by
        rintro rfl
        rename_i h0 _ _
        simp [atR] at h0
      have hl0 : l.getDistinctClassLabels ≠ [] := by
        intro e
        rw [e] at hlen
        exact hne (List.length_eq_zero_iff.mp hlen)
      obtain ⟨c, hcm⟩ := List.exists_mem_of_ne_nil _ hl0
      have := hpos _ _ _ ht c (.inl (by rw [hfst]; exact hcm))
      rw [hc] at this
      simp [OMap.keys] at this
    · simp only [hdis] at ht
      obtain ⟨b1, b2, b3, _, b5, b6⟩ := contClass_keys _
        { (NaiveBayes.new : NaiveBayes F) with prior := l.classDistribution } m
        OMap.sorted_nil OMap.sorted_nil ht
      refine ⟨b1, b2, b3, fun k => ?_, fun k => ?_⟩
      · rw [b5, hfst]
        simp [NaiveBayes.new, OMap.keys]
      · rw [b6, hfst]
        simp [NaiveBayes.new, OMap.keys]
  obtain ⟨k1, k2, k3, k4, k5⟩ := hkeys
  have hmem : ∀ k, k ∈ l.getDistinctClassLabels ↔ k ∈ l.classDistribution.getItems := by
    intro k
    rw [hcd.mem_items, hfo.mem_iff]
  obtain ⟨m', i, e, rfl, e'⟩ := C131_naive_bayes_restored T L hL m
    { prior := by rw [k3]; exact proper_distribution l
      labels := fun k hk => by
        rw [k3, hcd.mem_items] at hk
        obtain ⟨x, hx, rfl⟩ := List.mem_map.mp hk
        exact hw x hx
      meanKeys := by
        rw [k3]
        exact sorted_keys_eq k1 hcd.sorted (fun k => (k4 k).trans (hmem k))
      deviationKeys := by
        rw [k3]
        exact sorted_keys_eq k2 hcd.sorted (fun k => (k5 k).trans (hmem k))
      means := hm
      deviations := hd
      continuous := hc }
  exact ⟨m', i, e, e'⟩

/-! ## concrete cases -/

/-- numbers printed as integers (enough for the examples) -/
def intTxt : Txt XR where
  shown x := match x with
    | .fin q => toString q.num
    | _ => "nan"
  scan s := (scanInt s).map (fun p => (.fin p.1, p.2))
  toStr x := match x with
    | .fin q => toString q.num
    | _ => "nan"
  stof _ := .error (.throw "invalid_argument")
  stoi _ := .error (.throw "invalid_argument")

theorem survives_int (n : Int) : Survives intTxt (.fin n) := by
  refine ⟨?_, fun rest hr => ?_⟩
  · simpa [intTxt] using intText_word n
  · have := scanInt_text n rest (fun c r e => by
      have hb := hr c r e
      by_contra hd
      rw [Bool.not_eq_false] at hd
      rw [isDigit_not_blank hd] at hb
      cases hb)
    simp only [intTxt]
    rw [show (n : ℚ).num = n from rfl, this]
    rfl

/-- a sparse vector, read back -/
example : ∃ i, NodeL.read intTxt (In.ofText (NodeL.text intTxt
    [⟨0, .fin 3⟩, ⟨4, .fin (-12)⟩])) = .ok ([⟨0, .fin 3⟩, ⟨4, .fin (-12)⟩], i) :=
  C99_node_list intTxt _ (by
    intro n hn
    simp only [List.mem_cons, List.not_mem_nil, or_false] at hn
    rcases hn with rfl | rfl
    · exact survives_int 3
    · exact survives_int (-12))

/-- a machine with two classes and two support vectors -/
def savedSvm : Svm XR :=
  ⟨⟨[("no", 1), ("yes", 2)], 3⟩, [.fin 1], [1, 1], [[⟨0, .fin 2⟩], [⟨1, .fin (-1)⟩]],
    [[.fin 1, .fin (-1)]], none, 2, 1⟩

theorem savedSvm_printable : savedSvm.Printable intTxt where
  dist := ⟨by decide, rfl⟩
  labels := by
    intro k hk
    have : k = "no" ∨ k = "yes" := by simpa [savedSvm, DD.getItems, OMap.keys] using hk
    rcases this with rfl | rfl
    · exact ⟨by decide, by decide⟩
    · exact ⟨by decide, by decide⟩
  rho := by
    intro r hr
    have : r = .fin 1 := by simpa [savedSvm] using hr
    subst this
    exact survives_int 1
  vectors := by
    intro v hv n hn
    have : v = [⟨0, .fin 2⟩] ∨ v = [⟨1, .fin (-1)⟩] := by simpa [savedSvm] using hv
    rcases this with rfl | rfl
    · have : n = ⟨0, .fin 2⟩ := by simpa using hn
      subst this
      exact survives_int 2
    · have : n = ⟨1, .fin (-1)⟩ := by simpa using hn
      subst this
      exact survives_int (-1)
  coefs := by
    intro c hc x hx
    have : c = [.fin 1, .fin (-1)] := by simpa [savedSvm] using hc
    subst this
    have : x = .fin 1 ∨ x = .fin (-1) := by simpa using hx
    rcases this with rfl | rfl
    · exact survives_int 1
    · exact survives_int (-1)

/-- it is restored, and cannot predict -/
example : (∃ i, Svm.read intTxt (plainLib intTxt) (In.ofText (savedSvm.text intTxt
    (plainLib intTxt))) = .ok ({ savedSvm with param := none }, i)) ∧ savedSvm.supportVectors ≠ [] :=
  ⟨C99_svm_data _ _ (plainLib_ok _) _ savedSvm_printable, by decide⟩

/-- a training list of two classes -/
def nbList : IList XR := [⟨"b", [.continuous (.fin 1)], none⟩, ⟨"a", [.continuous (.fin 4)], none⟩,
  ⟨"b", [.continuous (.fin 3)], none⟩]

/-- the dummy classifier trained on it is restored -/
example : ∃ d i, dummyRead (plainLib intTxt) (In.ofText (dummyText (plainLib intTxt)
    nbList.classDistribution)) = .ok (d, i) ∧
    (∀ x : Inst XR, dummyPredict d x = dummyPredict nbList.classDistribution x) ∧
    (dummyProbability d : OMap XR) = dummyProbability nbList.classDistribution :=
  C130_trained_dummy_restored intTxt _ (plainLib_ok _) nbList (by
    intro x hx
    have : x.label = "b" ∨ x.label = "a" ∨ x.label = "b" := by
      simp only [nbList, List.mem_cons, List.not_mem_nil, or_false] at hx
      rcases hx with rfl | rfl | rfl <;> simp
    rcases this with h | h | h <;> rw [h] <;> exact ⟨by decide, by decide⟩)

/-- a naive Bayes model with two classes is printable -/
example : (⟨⟨[("a", 1), ("b", 2)], 3⟩, [("a", [.fin 4]), ("b", [.fin 2])],
    [("a", [.fin 1]), ("b", [.fin 5])], []⟩ : NaiveBayes XR).Printable intTxt where
  prior := ⟨by decide, rfl⟩
  labels := by
    intro k hk
    have : k = "a" ∨ k = "b" := by simpa [DD.getItems, OMap.keys] using hk
    rcases this with rfl | rfl
    · exact ⟨by decide, by decide⟩
    · exact ⟨by decide, by decide⟩
  meanKeys := rfl
  deviationKeys := rfl
  means := by
    intro p hp x hx
    simp only [List.mem_cons, List.not_mem_nil, or_false] at hp
    rcases hp with rfl | rfl
    · have : x = .fin 4 := by simpa using hx
      subst this
      exact survives_int 4
    · have : x = .fin 2 := by simpa using hx
      subst this
      exact survives_int 2
  deviations := by
    intro p hp x hx
    simp only [List.mem_cons, List.not_mem_nil, or_false] at hp
    rcases hp with rfl | rfl
    · have : x = .fin 1 := by simpa using hx
      subst this
      exact survives_int 1
    · have : x = .fin 5 := by simpa using hx
      subst this
      exact survives_int 5
  continuous := rfl

end Verif
