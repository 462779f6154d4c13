import Verif.Spec.Answers
import Verif.Props.NaiveBayes
import Verif.Props.Knn
import Verif.Props.DistFloat
import Verif.Props.TreePrune

/-! # Property C214: data of one type is learned, and every instance of the type is answered -/

namespace Verif
open Dbl

set_option linter.unusedSectionVars false

variable {F : Type} [Dbl F]

/-! ## loops that cannot fail -/

theorem foldlM_total {α σ : Type} (P : σ → Prop) (f : σ → α → Res σ) : ∀ (l : List α) (s : σ),
    (∀ a ∈ l, ∀ s, P s → ∃ s', f s a = .ok s' ∧ P s') → P s → ∃ r, l.foldlM f s = .ok r ∧ P r := by
  intro l
  induction l with
  | nil => intro s _ hs; exact ⟨s, rfl, hs⟩
  | cons a l ih =>
    intro s h hs
    obtain ⟨s', e, hs'⟩ := h a (by simp) s hs
    obtain ⟨r, e2, hr⟩ := ih s' (fun b hb => h b (by simp [hb])) hs'
    refine ⟨r, ?_, hr⟩
    rw [List.foldlM_cons, e]
    exact e2

/-- a loop over classes that leaves something for every class behind -/
theorem foldlM_classes {α σ : Type} (P : σ → Prop) (G : σ → α → Prop) (f : σ → α → Res σ) : ∀ (l : List α) (s : σ),
    (∀ a ∈ l, ∀ s, P s → ∃ s', f s a = .ok s' ∧ P s' ∧ G s' a ∧ ∀ b, G s b → G s' b) → P s →
    ∃ r, l.foldlM f s = .ok r ∧ P r ∧ (∀ a ∈ l, G r a) ∧ ∀ b, G s b → G r b := by
  intro l
  induction l with
  | nil => intro s _ hs; exact ⟨s, rfl, hs, by simp, fun _ h => h⟩
  | cons a l ih =>
    intro s h hs
    obtain ⟨s', e, hs', hg, hk⟩ := h a (by simp) s hs
    obtain ⟨r, e2, hr, hall, hkeep⟩ := ih s' (fun b hb => h b (by simp [hb])) hs'
    refine ⟨r, ?_, hr, ?_, fun b hb => hkeep b (hk b hb)⟩
    · rw [List.foldlM_cons, e]
      exact e2
    · intro b hb
      rcases List.mem_cons.1 hb with rfl | hb
      · exact hkeep _ hg
      · exact hall b hb

/-- appending one thing per index -/
theorem collect_total {α : Type} (g : Nat → Res α) (Q : Nat → α → Prop) (n : Nat)
    (h : ∀ i < n, ∃ a, g i = .ok a ∧ Q i a) :
    ∃ as : List α, (List.range n).foldlM (fun r i => do
      let a ← g i
      pure (r ++ [a])) [] = .ok as ∧ as.length = n ∧ ∀ i a, as[i]? = some a → Q i a := by
  induction n with
  | zero => exact ⟨[], rfl, rfl, by simp⟩
  | succ n ih =>
    obtain ⟨as, e, hl, hq⟩ := ih (fun i hi => h i (by omega))
    obtain ⟨a, ea, qa⟩ := h n (by omega)
    refine ⟨as ++ [a], ?_, by simp [hl], ?_⟩
    · rw [List.range_succ, List.foldlM_append, e, res_bind_ok, List.foldlM_cons, ea]
      rfl
    · intro i b hb
      rcases Nat.lt_or_ge i n with hi | hi
      · rw [List.getElem?_append_left (by omega)] at hb
        exact hq i b hb
      · rw [List.getElem?_append_right (by omega)] at hb
        have : i = n := by
          by_contra hne
          rw [List.getElem?_eq_none (by simp; omega)] at hb
          simp at hb
        subst this
        simp [hl] at hb
        subst hb; exact qa

/-! ## attributes by type -/

theorem attr_of_type {x : Inst F} {ts : List AttrType} (hx : typesOf x = ts) {i : Nat} {t : AttrType} (ht : ts[i]? = some t) :
    ∃ a, x.attrs[i]? = some a ∧ typeOf a = t := by
  rw [← hx] at ht
  unfold typesOf at ht
  rw [List.getElem?_map] at ht
  cases h : x.attrs[i]? with
  | none => rw [h] at ht; simp at ht
  | some a => rw [h] at ht; exact ⟨a, rfl, by simpa using ht⟩

theorem types_length {x : Inst F} {ts : List AttrType} (hx : typesOf x = ts) : x.attrs.length = ts.length := by
  rw [← hx]; simp [typesOf]

theorem contAt_total {x : Inst F} {ts : List AttrType} (hx : typesOf x = ts) {i : Nat} (ht : ts[i]? = some .continuous) :
    ∃ v, x.contAt i = .ok v := by
  obtain ⟨a, ha, e⟩ := attr_of_type hx ht
  cases a <;> simp [typeOf] at e
  case continuous v => exact ⟨v, by simp [Inst.contAt, Inst.getAttribute, atR, ha, Attr.contVal]⟩

theorem discAt_total {x : Inst F} {ts : List AttrType} (hx : typesOf x = ts) {i : Nat} (ht : ts[i]? = some .discrete) :
    ∃ v, x.discAt i = .ok v := by
  obtain ⟨a, ha, e⟩ := attr_of_type hx ht
  cases a <;> simp [typeOf] at e
  case discrete v => exact ⟨v, by simp [Inst.discAt, Inst.getAttribute, atR, ha, Attr.discVal]⟩

theorem sum_total {p : IList F} {ts : List AttrType} (hp : ∀ x ∈ p, typesOf x = ts) {i : Nat} (ht : ts[i]? = some .continuous)
    (f : F → F → F) (z : F) : ∃ s, p.foldlM (fun s x => do
      let v ← x.contAt i
      pure (f s v)) z = .ok s := by
  obtain ⟨s, e, _⟩ := foldlM_total (fun _ => True) (fun (s : F) (x : Inst F) => do
      let v ← x.contAt i
      pure (f s v)) p z (fun x hx s _ => by
        obtain ⟨v, e⟩ := contAt_total (hp x hx) ht
        exact ⟨f s v, by simp [e], trivial⟩) trivial
  exact ⟨s, e⟩

theorem attributeAverage_typed {p : IList F} (hne : p ≠ []) {ts : List AttrType} (hp : ∀ x ∈ p, typesOf x = ts) {i : Nat}
    {t : AttrType} (ht : ts[i]? = some t) (hs : NominalOrNumeric t) :
    ∃ a, p.attributeAverage i = .ok (some a) ∧ typeOf a = t := by
  obtain ⟨x, hx, h0⟩ := first_of_ne hne
  obtain ⟨a, ha, e⟩ := attr_of_type (hp x hx) ht
  have hg : x.getAttribute i = .ok a := by simp [Inst.getAttribute, atR, ha]
  unfold IList.attributeAverage
  rw [h0]
  simp only [res_bind_ok, hg]
  rcases hs with rfl | rfl
  · cases a <;> simp [typeOf] at e
    obtain ⟨vs, e, _⟩ := foldlM_total (fun _ => True) (fun (r : List String) (x : Inst F) => do
      let v ← x.discAt i
      pure (r ++ [v])) p [] (fun x hx s _ => by
        obtain ⟨v, e⟩ := discAt_total (hp x hx) ht
        exact ⟨s ++ [v], by simp [e], trivial⟩) trivial
    refine ⟨.discrete (getMaximum vs), ?_, rfl⟩
    simp only [Attr.isDiscrete, if_true]
    rw [e]; rfl
  · cases a <;> simp [typeOf] at e
    obtain ⟨s, e⟩ := sum_total hp ht (fun s v => s +. v) (Dbl.zero : F)
    refine ⟨.continuous (s /. Dbl.ofNat p.length), ?_, rfl⟩
    simp only [Attr.isDiscrete, Bool.false_eq_true, if_false, Attr.isContinuous, if_true]
    rw [e]; rfl

theorem contStdDev_total {p : IList F} {ts : List AttrType} (hp : ∀ x ∈ p, typesOf x = ts) {i : Nat}
    (ht : ts[i]? = some .continuous) : ∃ s, p.contStdDev i = .ok s := by
  obtain ⟨s, e⟩ := sum_total hp ht (fun s v => s +. v) (Dbl.zero : F)
  obtain ⟨s2, e2⟩ := sum_total hp ht (fun s' v => s' +. Dbl.pow (v -. (s /. Dbl.ofNat p.length)) 2) (Dbl.zero : F)
  refine ⟨Dbl.sqrt (s2 /. Dbl.ofNat (p.length - 1)), ?_⟩
  unfold IList.contStdDev
  rw [e]
  simp only [res_bind_ok]
  rw [e2]; rfl

theorem all_some {α : Type} : ∀ (as : List (Option α)), (∀ (i : Nat) (a : Option α), as[i]? = some a → ∃ b, a = some b) →
    ∃ bs : List α, as = bs.map some := by
  intro as
  induction as with
  | nil => intro _; exact ⟨[], rfl⟩
  | cons a as ih =>
    intro h
    obtain ⟨b, rfl⟩ := h 0 a (by simp)
    obtain ⟨bs, rfl⟩ := ih (fun i a ha => h (i + 1) a (by simpa using ha))
    exact ⟨b :: bs, rfl⟩

theorem average_typed {p : IList F} (hne : p ≠ []) {ts : List AttrType} (hp : ∀ x ∈ p, typesOf x = ts)
    (hs : ∀ t ∈ ts, NominalOrNumeric t) {c : String} (hc : ∀ x ∈ p, x.label = c) :
    ∃ as : List (Attr F), p.average = .ok (c, as.map some) ∧ as.map typeOf = ts := by
  obtain ⟨x, hx, h0⟩ := first_of_ne hne
  obtain ⟨as, e, hl, hq⟩ := collect_total (fun i => p.attributeAverage i)
    (fun i a => ∃ b, a = some b ∧ ts[i]? = some (typeOf b)) ts.length (fun i hi => by
      have ht : ts[i]? = some ts[i] := List.getElem?_eq_getElem hi
      obtain ⟨a, ea, ta⟩ := attributeAverage_typed hne hp ht (hs _ (List.getElem_mem hi))
      exact ⟨some a, ea, a, rfl, by rw [ta, ht]⟩)
  obtain ⟨bs, rfl⟩ := all_some as (fun i a ha => by obtain ⟨b, hb, _⟩ := hq i a ha; exact ⟨b, hb⟩)
  refine ⟨bs, ?_, ?_⟩
  · unfold IList.average
    rw [h0]
    simp only [res_bind_ok, Inst.attributeSize, types_length (hp x hx)]
    rw [e, res_bind_ok, res_pure, hc x hx]
  · apply List.ext_getElem?
    intro i
    rw [List.getElem?_map]
    cases h : bs[i]? with
    | none =>
      have : bs.length ≤ i := by simpa using h
      simp at hl
      rw [List.getElem?_eq_none (by omega)]; rfl
    | some b =>
      obtain ⟨b', hb, ht⟩ := hq i (some b) (by simp [h])
      cases hb
      rw [ht]; rfl

theorem standardDeviation_total {p : IList F} (hne : p ≠ []) {n : Nat}
    (hp : ∀ x ∈ p, typesOf x = List.replicate n .continuous) :
    ∃ (c : String) (as : List (Attr F)), p.standardDeviation = .ok (c, as.map some) ∧
      as.map typeOf = List.replicate n .continuous := by
  obtain ⟨x, hx, h0⟩ := first_of_ne hne
  obtain ⟨as, e, hl, hq⟩ := collect_total (fun i => p.attributeStandardDeviation i)
    (fun i a => ∃ b, a = some (.continuous b)) n (fun i hi => by
      have ht : (List.replicate n AttrType.continuous)[i]? = some .continuous := by simp [hi]
      obtain ⟨s, es⟩ := contStdDev_total hp ht
      obtain ⟨a, ha, ta⟩ := attr_of_type (hp x hx) ht
      have hg : x.getAttribute i = .ok a := by simp [Inst.getAttribute, atR, ha]
      cases a <;> simp [typeOf] at ta
      refine ⟨some (.continuous s), ?_, s, rfl⟩
      unfold IList.attributeStandardDeviation
      rw [h0]
      simp only [res_bind_ok, hg, Attr.isContinuous, if_true, es, res_pure])
  obtain ⟨bs, rfl⟩ := all_some as (fun i a ha => by obtain ⟨b, hb⟩ := hq i a ha; exact ⟨_, hb⟩)
  refine ⟨x.label, bs, ?_, ?_⟩
  · unfold IList.standardDeviation
    rw [h0]
    simp only [res_bind_ok, Inst.attributeSize, types_length (hp x hx), List.length_replicate]
    rw [e, res_bind_ok, res_pure]
  · rw [List.eq_replicate_iff]
    refine ⟨by simpa using hl, ?_⟩
    intro t ht
    obtain ⟨b, hb, rfl⟩ := List.mem_map.1 ht
    obtain ⟨i, hi⟩ := List.mem_iff_getElem?.1 hb
    obtain ⟨b', hb'⟩ := hq i (some b) (by simp [hi])
    cases hb'; rfl

theorem toVector_total {x : Inst F} {n : Nat} (hx : typesOf x = List.replicate n .continuous) :
    ∃ v, x.toVector = .ok v ∧ v.length = n := by
  have key : ∀ (as : List (Attr F)) (r : List F), (∀ a ∈ as, typeOf a = .continuous) →
      ∃ v, as.foldlM (fun r a => do
        let inserted ← a.continuousAttributes
        pure (r ++ inserted)) r = .ok v ∧ v.length = r.length + as.length := by
    intro as
    induction as with
    | nil => intro r _; exact ⟨r, rfl, rfl⟩
    | cons a as ih =>
      intro r h
      have ha := h a (by simp)
      cases a <;> simp [typeOf] at ha
      case continuous w =>
        obtain ⟨v, e, hl⟩ := ih (r ++ [w]) (fun b hb => h b (by simp [hb]))
        refine ⟨v, ?_, by rw [hl]; simp; omega⟩
        rw [List.foldlM_cons]
        exact e
  obtain ⟨v, e, hl⟩ := key x.attrs [] (fun a ha => by
    have : typeOf a ∈ typesOf x := List.mem_map.2 ⟨a, ha, rfl⟩
    rw [hx] at this
    exact List.eq_of_mem_replicate this)
  refine ⟨v, e, ?_⟩
  have := types_length hx
  simp at this hl
  omega

/-! ## the classifiers -/

theorem prior_mem (l : IList F) (c : String) : l.classDistribution.containsItem c = true ↔ c ∈ l.map Inst.label := by
  rw [containsItem_eq, List.contains_iff_mem, (C10_class_distribution l).mem_items]

/-- the Gaussian family answers if the scores of the training classes can be computed -/
theorem gauss_answers (prior : DD) (l : IList F) (hne : l ≠ []) (hprior : prior = l.classDistribution)
    (metric : Inst F → String → Res F) (P : Inst F → Prop)
    (h : ∀ x, P x → ∀ c ∈ l.map Inst.label, ∃ v, metric x c = .ok v) :
    AnswersAll (gaussPredict prior metric) P l := by
  subst hprior
  intro x hx
  have step : ∀ (labels : List String) (S : List String), (∀ c ∈ labels, c ∈ S) → ∀ init ∈ S,
      ∃ b, labels.foldlM (gaussStep l.classDistribution (metric x)) (init, Dbl.neg (Dbl.maxVal : F)) = .ok b ∧ b.1 ∈ S := by
    intro labels S hS init hi
    refine foldlM_total (fun b : String × F => b.1 ∈ S) _ labels _ ?_ hi
    intro c hc b hb
    unfold gaussStep
    split
    · rename_i hcon
      obtain ⟨v, e⟩ := h x hx c ((prior_mem l c).1 hcon)
      rw [e]
      refine ⟨_, rfl, ?_⟩
      split
      · exact hS c hc
      · exact hb
    · exact ⟨b, rfl, hb⟩
  constructor
  · intro hp
    have hc : x.isComposite = false := by simp [Inst.isComposite, hp]
    have hmaj := getMaxItem_majority (l.map Inst.label) (by simpa using hne)
    rw [← classDistribution_eq] at hmaj
    obtain ⟨b, e, hb⟩ := step l.classDistribution.getItems (l.map Inst.label)
      (fun c hc => ((C10_class_distribution l).mem_items c).1 hc) _ hmaj.mem
    refine ⟨b.1, hb, ?_⟩
    unfold gaussPredict gaussInit
    simp only [hc, Bool.false_eq_true, if_false, res_pure, res_bind_ok, e]
  · intro ps hp hps
    have hc : x.isComposite = true := by simp [Inst.isComposite, hp]
    have hl : x.possibleLabels = ps := by simp [Inst.possibleLabels, hp]
    cases ps with
    | nil => exact absurd rfl hps
    | cons a ps =>
      obtain ⟨b, e, hb⟩ := step (a :: ps) (a :: ps) (fun c hc => hc) a (by simp)
      refine ⟨b.1, hb, ?_⟩
      unfold gaussPredict gaussInit
      simp only [hc, if_true, hl, atR_cons_zero, res_pure, res_bind_ok, e]

/-- **C214** (the most frequent class) -/
theorem C214_dummy (l : IList F) (hne : l ≠ []) :
    AnswersAll (fun x => .ok (dummyPredict l.classDistribution x)) (fun _ => True) l := by
  intro x _
  refine ⟨fun hp => ⟨_, ?_, rfl⟩, fun ps hp hps => ⟨_, ?_, rfl⟩⟩
  · have hc : x.isComposite = false := by simp [Inst.isComposite, hp]
    have hmaj := getMaxItem_majority (l.map Inst.label) (by simpa using hne)
    rw [← classDistribution_eq] at hmaj
    simp only [dummyPredict, hc, Bool.false_eq_true, if_false]
    exact hmaj.mem
  · have hc : x.isComposite = true := by simp [Inst.isComposite, hp]
    have hl : x.possibleLabels = ps := by simp [Inst.possibleLabels, hp]
    simp only [dummyPredict, hc, if_true, hl]
    exact getMaxItemOf_mem _ hps

/-- **C214** (random classes, whatever number is drawn) -/
theorem C214_random (l : IList F) (hne : l ≠ []) (r : Inst F → Nat) :
    AnswersAll (fun x => randomPredict (randomTrain l) (r x) x) (fun _ => True) l := by
  intro x _
  have hmem : ∀ c, c ∈ randomTrain l ↔ c ∈ l.map Inst.label := fun c => by
    rw [C48_trained_labels]; simp
  have hlab : randomTrain l ≠ [] := by
    cases l with
    | nil => exact absurd rfl hne
    | cons y l => exact fun h => by have := (hmem y.label).2 (by simp); rw [h] at this; simp at this
  refine ⟨fun hp => ?_, fun ps hp hps => ?_⟩
  · have hc : x.isComposite = false := by simp [Inst.isComposite, hp]
    obtain ⟨c, e, h, _⟩ := C48_random (randomTrain l) (r x) x (fun _ => hlab) (fun h => by simp [hc] at h)
    exact ⟨c, (hmem c).1 (h hc), e⟩
  · have hc : x.isComposite = true := by simp [Inst.isComposite, hp]
    have hl : x.possibleLabels = ps := by simp [Inst.possibleLabels, hp]
    obtain ⟨c, e, _, h⟩ := C48_random (randomTrain l) (r x) x (fun h => by simp [hc] at h) (fun _ => by rwa [hl])
    exact ⟨c, hl ▸ h hc, e⟩

/-- nearest neighbours answer if all distances can be computed -/
theorem knn_answers (l : IList F) (hne : l ≠ []) (old : Knn F) (k : Int) (hk : 1 ≤ k) (dist : Inst F → Inst F → Res F)
    (P : Inst F → Prop) (hd : ∀ x, P x → ∀ y ∈ l, ∃ d, dist y x = .ok d) :
    AnswersAll (old.train l k dist).predict P l := by
  intro x hx
  obtain ⟨cand, e, hc1, hc2, hc3⟩ : ∃ cand : List (Inst F × F), l.foldlM (fun (r : List (Inst F × F)) y =>
      if Knn.eligible x y then do
        let d ← dist y x
        pure (r ++ [(y, d)])
      else pure r) [] = .ok cand ∧ (∀ q ∈ cand, q.1 ∈ l ∧ Knn.eligible x q.1 = true) ∧
        (x.isComposite = false → cand.length = l.length) ∧ True := by
    have key : ∀ (l' : IList F) (r : List (Inst F × F)), (∀ y ∈ l', y ∈ l) → (∀ q ∈ r, q.1 ∈ l ∧ Knn.eligible x q.1 = true) →
        ∃ cand : List (Inst F × F), l'.foldlM (fun (r : List (Inst F × F)) y =>
          if Knn.eligible x y then do
            let d ← dist y x
            pure (r ++ [(y, d)])
          else pure r) r = .ok cand ∧ (∀ q ∈ cand, q.1 ∈ l ∧ Knn.eligible x q.1 = true) ∧
            (x.isComposite = false → cand.length = r.length + l'.length) := by
      intro l'
      induction l' with
      | nil => intro r _ hr; exact ⟨r, rfl, hr, fun _ => rfl⟩
      | cons y l' ih =>
        intro r hl' hr
        by_cases he : Knn.eligible x y = true
        · obtain ⟨d, e⟩ := hd x hx y (hl' y (by simp))
          obtain ⟨cand, e2, h1, h2⟩ := ih (r ++ [(y, d)]) (fun z hz => hl' z (by simp [hz])) (by
            intro q hq
            rcases List.mem_append.1 hq with hq | hq
            · exact hr q hq
            · simp at hq; subst hq; exact ⟨hl' y (by simp), he⟩)
          refine ⟨cand, ?_, h1, fun hc => by rw [h2 hc]; simp; omega⟩
          rw [List.foldlM_cons, if_pos he, e]
          exact e2
        · obtain ⟨cand, e2, h1, h2⟩ := ih r (fun z hz => hl' z (by simp [hz])) hr
          refine ⟨cand, ?_, h1, fun hc => ?_⟩
          · rw [List.foldlM_cons, if_neg he]
            exact e2
          · simp [Knn.eligible, hc] at he
    obtain ⟨cand, e, h1, h2⟩ := key l [] (fun _ h => h) (by simp)
    exact ⟨cand, e, h1, fun hc => by simpa using h2 hc, trivial⟩
  have hperm := (stableSort_perm (fun (a b : Inst F × F) => a.2 <. b.2) cand)
  have hn : (old.train l k dist).nearestNeighbors x =
      .ok (((stableSort (fun (a b : Inst F × F) => a.2 <. b.2) cand).take k.toNat).map Prod.fst) := by
    unfold Knn.nearestNeighbors Knn.train
    rw [e]; rfl
  obtain ⟨v1, v2⟩ := C50_vote _ x _ hn
  have hmem : ∀ y ∈ ((stableSort (fun (a b : Inst F × F) => a.2 <. b.2) cand).take k.toNat).map Prod.fst,
      y ∈ l ∧ Knn.eligible x y = true := by
    intro y hy
    obtain ⟨q, hq, rfl⟩ := List.mem_map.1 hy
    exact hc1 q (hperm.mem_iff.1 (List.mem_of_mem_take hq))
  refine ⟨fun hp => ?_, fun ps hp hps => ?_⟩
  · have hc : x.isComposite = false := by simp [Inst.isComposite, hp]
    obtain ⟨c, ec, hmaj⟩ := v1 (by
      intro h
      have hl := congrArg List.length h
      have hp' := hperm.length_eq
      have := hc2 hc
      have := List.length_pos_iff.2 hne
      rw [List.length_map, List.length_take, List.length_nil] at hl
      omega)
    refine ⟨c, ?_, ec⟩
    obtain ⟨y, hy, rfl⟩ := List.mem_map.1 hmaj.mem
    exact List.mem_map.2 ⟨y, (hmem y hy).1, rfl⟩
  · have hc : x.isComposite = true := by simp [Inst.isComposite, hp]
    have hl : x.possibleLabels = ps := by simp [Inst.possibleLabels, hp]
    by_cases hemp : ((stableSort (fun (a b : Inst F × F) => a.2 <. b.2) cand).take k.toNat).map Prod.fst = []
    · cases ps with
      | nil => exact absurd rfl hps
      | cons a ps => exact ⟨a, by simp, v2 hemp hc a ps hl⟩
    · obtain ⟨c, ec, hmaj⟩ := v1 hemp
      refine ⟨c, ?_, ec⟩
      obtain ⟨y, hy, rfl⟩ := List.mem_map.1 hmaj.mem
      have := (hmem y hy).2
      simpa [Knn.eligible, hc, hl] using this

/-- **C214** (nearest neighbours, Euclidean distance, columns of any types; the distances are not NaN, or they cannot be
sorted) -/
theorem C214_nearest_neighbours (l : IList F) (hne : l ≠ []) (ts : List AttrType) (hl : ∀ y ∈ l, OfType ts y) (old : Knn F)
    (k : Int) (hk : 1 ≤ k) :
    AnswersAll (old.train l k euclidean).predict
      (fun x => OfType ts x ∧ ∀ y ∈ l, ∀ d, euclidean y x = .ok d → Dbl.Ord d) l := by
  refine knn_answers l hne old k hk euclidean _ (fun x hx y hy => ⟨_, euclidean_foldl y x ?_⟩)
  rw [types_length (hl y hy), types_length hx.1]

/-- **C214** (nearest neighbours, Mahalanobis distance, numeric columns, any matrix) -/
theorem C214_nearest_neighbours_mahalanobis (l : IList F) (hne : l ≠ []) (n : Nat)
    (hl : ∀ y ∈ l, OfType (List.replicate n .continuous) y) (old : Knn F) (k : Int) (hk : 1 ≤ k) (covInv : Mat F) :
    AnswersAll (old.train l k (mahalanobis covInv)).predict
      (fun x => OfType (List.replicate n .continuous) x ∧ ∀ y ∈ l, ∀ d, mahalanobis covInv y x = .ok d → Dbl.Ord d) l := by
  refine knn_answers l hne old k hk _ _ (fun x hx y hy => ?_)
  obtain ⟨v, e, _⟩ := toVector_total (hl y hy)
  obtain ⟨w, e2, _⟩ := toVector_total hx.1
  exact ⟨_, by unfold mahalanobis; rw [e, e2]; rfl⟩

theorem class_types {l : IList F} {ts : List AttrType} (hl : ∀ y ∈ l, OfType ts y) (c : String) :
    (∀ x ∈ l.filter (fun x => x.label == c), typesOf x = ts) ∧ ∀ x ∈ l.filter (fun x => x.label == c), x.label = c := by
  refine ⟨fun x hx => hl x (List.mem_of_mem_filter hx), fun x hx => by simpa using (List.mem_filter.1 hx).2⟩

/-- **C214** (nearest mean, nominal and numeric columns in any mixture) -/
theorem C214_nearest_mean (l : IList F) (hne : l ≠ []) (ts : List AttrType) (hts : ∀ t ∈ ts, NominalOrNumeric t)
    (hl : ∀ y ∈ l, OfType ts y) (old : KMeans F) :
    ∃ m, KMeans.train old l euclidean = .ok m ∧ AnswersAll m.predict (OfType ts) l := by
  have hmean : ∀ c, ∃ as : List (Attr F), c ∈ l.map Inst.label →
      IList.average (l.filter (fun x => x.label == c)) = .ok (c, as.map some) ∧ as.map typeOf = ts := by
    intro c
    by_cases hc : c ∈ l.map Inst.label
    · obtain ⟨as, e, h⟩ := average_typed (class_ne_nil l c hc) (class_types hl c).1 hts (class_types hl c).2
      exact ⟨as, fun _ => ⟨e, h⟩⟩
    · exact ⟨[], fun h => absurd h hc⟩
  choose means hmeans using hmean
  refine ⟨_, kmeans_trained old l euclidean means (fun c hc => (hmeans c hc).1), ?_⟩
  refine gauss_answers _ l hne rfl _ _ ?_
  intro x hx c hc
  unfold KMeans.metric
  dsimp only
  rw [kmeans_find _ (fun c => (means c).map some) c (((C07_distinct_class_labels l).mem_iff c).2 hc)]
  dsimp only
  rw [nonNull_some, res_bind_ok, euclidean_foldl]
  · exact ⟨_, rfl⟩
  · have h1 := types_length hx
    have h2 := congrArg List.length (hmeans c hc).2
    simp at h2
    dsimp only
    omega

/-! ### naive Bayes -/

theorem meanVector_total {c : String} {as : List (Attr F)} {n : Nat} (h : as.map typeOf = List.replicate n .continuous) :
    ∃ v, NaiveBayes.meanVector (c, as.map some) = .ok v ∧ v.length = n := by
  obtain ⟨v, e, hv⟩ := toVector_total (x := (⟨c, as, none⟩ : Inst F)) (n := n) h
  refine ⟨v, ?_, hv⟩
  unfold NaiveBayes.meanVector
  dsimp only
  rw [nonNull_some]
  exact e

theorem replicate_numeric (n : Nat) : ∀ t ∈ List.replicate n AttrType.continuous, NominalOrNumeric t :=
  fun _ ht => .inr (List.eq_of_mem_replicate ht)

theorem emplace_good {V : Type} {m : OMap V} {Q : V → Prop} (hm : ∀ k v, OMap.find? m k = some v → Q v) (c : String) (w : V)
    (hw : Q w) :
    (∀ k v, OMap.find? (m.emplace c w) k = some v → Q v) ∧ (∃ v, OMap.find? (m.emplace c w) c = some v) ∧
      ∀ k, (∃ v, OMap.find? m k = some v) → ∃ v, OMap.find? (m.emplace c w) k = some v := by
  refine ⟨?_, ?_, ?_⟩
  · intro k v h
    rw [find?_emplace] at h
    split at h
    · cases h2 : OMap.find? m c with
      | none => rw [h2] at h; simp at h; exact h ▸ hw
      | some u => rw [h2] at h; simp at h; exact h ▸ hm c u h2
    · exact hm k v h
  · exact ⟨_, by rw [find?_emplace, if_pos rfl]⟩
  · rintro k ⟨v, h⟩
    rw [find?_emplace]
    split
    · exact ⟨_, rfl⟩
    · exact ⟨v, h⟩

theorem first_of_class {l : IList F} (hne : l ≠ []) {ts : List AttrType} (hl : ∀ y ∈ l, OfType ts y) :
    ∃ ps p0 x0, Parts.byClass l = .ok ps ∧ atR ps 0 = .ok p0 ∧ atR p0 0 = .ok x0 ∧ OfType ts x0 ∧
      l.getDistinctClassLabels.zip ps =
        l.getDistinctClassLabels.map (fun c => (c, l.filter (fun x => x.label == c))) := by
  obtain ⟨ps, e, _, hz, hps⟩ := labelled_classes l
  have hfo := C07_distinct_class_labels l
  cases h : l.getDistinctClassLabels with
  | nil =>
    cases l with
    | nil => exact absurd rfl hne
    | cons y l => exact absurd ((hfo.mem_iff y.label).2 (by simp)) (by rw [h]; simp)
  | cons c cs =>
    have hc : c ∈ l.map Inst.label := (hfo.mem_iff c).1 (by rw [h]; simp)
    obtain ⟨x0, hx0, e0⟩ := first_of_ne (class_ne_nil l c hc)
    refine ⟨ps, l.filter (fun x => x.label == c), x0, e, ?_, e0, hl x0 (List.mem_of_mem_filter hx0), by rw [← h]; exact hz⟩
    rw [hps, h]; rfl

/-- **C214** (naive Bayes, numeric columns) -/
theorem C214_naive_bayes_numeric (l : IList F) (hne : l ≠ []) (n : Nat) (hn : 0 < n)
    (hl : ∀ y ∈ l, OfType (List.replicate n .continuous) y) :
    ∃ m, NaiveBayes.train NaiveBayes.new l = .ok m ∧ AnswersAll m.predict (OfType (List.replicate n .continuous)) l := by
  obtain ⟨ps, p0, x0, e, e0, e1, h0, hz⟩ := first_of_class hne hl
  obtain ⟨a0, ha0, ta0⟩ := attr_of_type h0 (i := 0) (t := .continuous) (by simp [hn])
  have hfo := C07_distinct_class_labels l
  obtain ⟨m, em, ⟨hprior, hdist, hmu, hsd⟩, hall, _⟩ := foldlM_classes
    (fun m : NaiveBayes F => m.prior = l.classDistribution ∧ m.classAttributeDistributions = [] ∧
      (∀ k v, OMap.find? m.classMeans k = some v → v.length = n) ∧
      (∀ k v, OMap.find? m.classDeviations k = some v → v.length = n))
    (fun m (p : String × IList F) => (∃ v, OMap.find? m.classMeans p.1 = some v) ∧ ∃ v, OMap.find? m.classDeviations p.1 = some v)
    NaiveBayes.contClass (l.getDistinctClassLabels.zip ps)
    { NaiveBayes.new with prior := l.classDistribution } (by
      intro p hp m ⟨h1, h2, h3, h4⟩
      rw [hz] at hp
      obtain ⟨c, hc, rfl⟩ := List.mem_map.1 hp
      have hc' := (hfo.mem_iff c).1 hc
      have hcl := class_types hl c
      obtain ⟨as, ea, ha⟩ := average_typed (class_ne_nil l c hc') hcl.1 (replicate_numeric n) hcl.2
      obtain ⟨av, eav, hav⟩ := meanVector_total (c := c) ha
      obtain ⟨c2, ss, es, hs⟩ := standardDeviation_total (class_ne_nil l c hc') hcl.1
      obtain ⟨sv, esv, hsv⟩ := meanVector_total (c := c2) hs
      obtain ⟨g1, g2, g3⟩ := emplace_good h3 c av hav
      obtain ⟨k1, k2, k3⟩ := emplace_good h4 c sv hsv
      refine ⟨{ m with classMeans := m.classMeans.emplace c av, classDeviations := m.classDeviations.emplace c sv }, ?_,
        ⟨h1, h2, g1, k1⟩, ⟨g2, k2⟩, fun b hb => ⟨g3 b.1 hb.1, k3 b.1 hb.2⟩⟩
      unfold NaiveBayes.contClass
      dsimp only
      rw [ea, res_bind_ok, eav, res_bind_ok, es, res_bind_ok, esv, res_bind_ok, res_pure])
    ⟨rfl, rfl, by simp [NaiveBayes.new, OMap.find?], by simp [NaiveBayes.new, OMap.find?]⟩
  refine ⟨m, ?_, ?_⟩
  · unfold NaiveBayes.train
    rw [e, res_bind_ok, e0, res_bind_ok, e1, res_bind_ok]
    have hg : x0.getAttribute 0 = .ok a0 := by simp [Inst.getAttribute, atR, ha0]
    rw [hg, res_bind_ok]
    cases a0 <;> simp [typeOf] at ta0
    exact em
  · refine gauss_answers _ l hne hprior _ _ ?_
    intro x hx c hc
    unfold NaiveBayes.metric
    rw [hdist]
    simp only [List.isEmpty_nil, if_true]
    unfold NaiveBayes.logLikelihoodContinuous
    obtain ⟨⟨mu, hmu'⟩, sd, hsd'⟩ := hall (c, l.filter (fun x => x.label == c)) (by
      rw [hz]; exact List.mem_map.2 ⟨c, (hfo.mem_iff c).2 hc, rfl⟩)
    have hlen := types_length hx
    rw [List.length_replicate] at hlen
    have hnz : x.attrs.length ≠ 0 := by omega
    simp only [NaiveBayes.lookupFor, hnz, if_false, findR, hmu', hsd', res_bind_ok]
    obtain ⟨s, es, _⟩ := foldlM_total (fun _ => True) (NaiveBayes.contStep mu sd) x.attrs.zipIdx
      (Dbl.log (m.prior.getProbability c : F)) (by
        intro p hp s _
        have hi := List.mem_zipIdx' (x := p.1) (i := p.2) hp
        have hlt : p.2 < n := by omega
        have ht : typeOf p.1 = .continuous := by
          have : typeOf p.1 ∈ typesOf x := List.mem_map.2 ⟨p.1, by rw [hi.2]; exact List.getElem_mem _, rfl⟩
          rw [show typesOf x = _ from hx] at this
          exact List.eq_of_mem_replicate this
        obtain ⟨a, i⟩ := p
        cases a <;> simp [typeOf] at ht
        dsimp only at hlt
        have l1 := hmu c mu hmu'
        have l2 := hsd c sd hsd'
        unfold NaiveBayes.contStep
        rw [idxR_ok_of_lt (by omega : i < mu.length), idxR_ok_of_lt (by omega : i < sd.length)]
        exact ⟨_, rfl, trivial⟩) trivial
    exact ⟨s, es⟩

theorem allAttributesDistribution_total {p : IList F} (hne : p ≠ []) {n : Nat}
    (hp : ∀ x ∈ p, typesOf x = List.replicate n .discrete) :
    ∃ ds, p.allAttributesDistribution = .ok ds ∧ ds.length = n := by
  obtain ⟨x, hx, h0⟩ := first_of_ne hne
  obtain ⟨ds, e, hl, _⟩ := collect_total (fun i => p.attributeDistribution i) (fun _ _ => True) n (fun i hi => by
    have ht : (List.replicate n AttrType.discrete)[i]? = some .discrete := by simp [hi]
    obtain ⟨a, ha, ta⟩ := attr_of_type (hp x hx) ht
    have hg : x.getAttribute i = .ok a := by simp [Inst.getAttribute, atR, ha]
    cases a <;> simp [typeOf] at ta
    obtain ⟨d, e, _⟩ := foldlM_total (fun _ => True) (fun (d : DD) (x : Inst F) => do
      let v ← x.discAt i
      pure (d.addItem v)) p DD.empty (fun x hx s _ => by
        obtain ⟨v, e⟩ := discAt_total (hp x hx) ht
        exact ⟨s.addItem v, by simp [e], trivial⟩) trivial
    refine ⟨d, ?_, trivial⟩
    unfold IList.attributeDistribution
    rw [h0]
    simp only [res_bind_ok, hg, Attr.isDiscrete, if_true]
    exact e)
  refine ⟨ds, ?_, hl⟩
  unfold IList.allAttributesDistribution
  rw [h0, res_bind_ok]
  simp only [Inst.attributeSize, types_length (hp x hx), List.length_replicate]
  exact e

/-- **C214** (naive Bayes, nominal columns) -/
theorem C214_naive_bayes_nominal (l : IList F) (hne : l ≠ []) (n : Nat) (hn : 0 < n)
    (hl : ∀ y ∈ l, OfType (List.replicate n .discrete) y) :
    ∃ m, NaiveBayes.train NaiveBayes.new l = .ok m ∧ AnswersAll m.predict (OfType (List.replicate n .discrete)) l := by
  obtain ⟨ps, p0, x0, e, e0, e1, h0, hz⟩ := first_of_class hne hl
  obtain ⟨a0, ha0, ta0⟩ := attr_of_type h0 (i := 0) (t := .discrete) (by simp [hn])
  have hfo := C07_distinct_class_labels l
  obtain ⟨m, em, ⟨hprior, hds⟩, hall, _⟩ := foldlM_classes
    (fun m : NaiveBayes F => m.prior = l.classDistribution ∧
      (∀ k v, OMap.find? m.classAttributeDistributions k = some v → v.length = n))
    (fun m (p : String × IList F) => ∃ v, OMap.find? m.classAttributeDistributions p.1 = some v)
    NaiveBayes.discClass (l.getDistinctClassLabels.zip ps)
    { NaiveBayes.new with prior := l.classDistribution } (by
      intro p hp m ⟨h1, h2⟩
      rw [hz] at hp
      obtain ⟨c, hc, rfl⟩ := List.mem_map.1 hp
      have hc' := (hfo.mem_iff c).1 hc
      obtain ⟨ds, ed, hd⟩ := allAttributesDistribution_total (class_ne_nil l c hc') (class_types hl c).1
      obtain ⟨g1, g2, g3⟩ := emplace_good h2 c ds hd
      refine ⟨{ m with classAttributeDistributions := m.classAttributeDistributions.emplace c ds }, ?_, ⟨h1, g1⟩, g2, fun b hb => g3 b.1 hb⟩
      unfold NaiveBayes.discClass
      dsimp only
      rw [ed, res_bind_ok, res_pure])
    ⟨rfl, by simp [NaiveBayes.new, OMap.find?]⟩
  refine ⟨m, ?_, ?_⟩
  · unfold NaiveBayes.train
    rw [e, res_bind_ok, e0, res_bind_ok, e1, res_bind_ok]
    have hg : x0.getAttribute 0 = .ok a0 := by simp [Inst.getAttribute, atR, ha0]
    rw [hg, res_bind_ok]
    cases a0 <;> simp [typeOf] at ta0
    exact em
  · refine gauss_answers _ l hne hprior _ _ ?_
    intro x hx c hc
    obtain ⟨ds, hds'⟩ := hall (c, l.filter (fun x => x.label == c)) (by
      rw [hz]; exact List.mem_map.2 ⟨c, (hfo.mem_iff c).2 hc, rfl⟩)
    have hne' : m.classAttributeDistributions.isEmpty = false := by
      cases h : m.classAttributeDistributions with
      | nil => rw [h] at hds'; simp [OMap.find?] at hds'
      | cons _ _ => rfl
    unfold NaiveBayes.metric
    rw [hne']
    simp only [Bool.false_eq_true, if_false]
    unfold NaiveBayes.logLikelihoodDiscrete
    have hlen := types_length hx
    rw [List.length_replicate] at hlen
    simp only [findR, hds', res_bind_ok]
    obtain ⟨s, es, _⟩ := foldlM_total (fun _ => True) (NaiveBayes.discStep ds) x.attrs.zipIdx
      (Dbl.log (m.prior.getProbability c : F)) (by
        intro p hp s _
        have hi := List.mem_zipIdx' (x := p.1) (i := p.2) hp
        have hlt : p.2 < n := by omega
        have ht : typeOf p.1 = .discrete := by
          have : typeOf p.1 ∈ typesOf x := List.mem_map.2 ⟨p.1, by rw [hi.2]; exact List.getElem_mem _, rfl⟩
          rw [show typesOf x = _ from hx] at this
          exact List.eq_of_mem_replicate this
        obtain ⟨a, i⟩ := p
        cases a <;> simp [typeOf] at ht
        dsimp only at hlt
        have l1 := hds c ds hds'
        unfold NaiveBayes.discStep
        rw [atR_ok_of_lt (by omega : i < ds.length)]
        exact ⟨_, rfl, trivial⟩) trivial
    exact ⟨s, es⟩

/-! ### linear and quadratic discriminants -/

theorem contAverage_total {p : IList F} (hne : p ≠ []) {n : Nat} (hp : ∀ x ∈ p, typesOf x = List.replicate n .continuous) :
    ∃ av, p.continuousAttributeAverage = .ok av ∧ av.length = n := by
  obtain ⟨x, hx, h0⟩ := first_of_ne hne
  have hstep : ∀ i, i < n → ∃ a, p.continuousAttributeAverageAt i = .ok [a] := by
    intro i hi
    have ht : (List.replicate n AttrType.continuous)[i]? = some .continuous := by simp [hi]
    obtain ⟨a, ha, ta⟩ := attr_of_type (hp x hx) ht
    have hg : x.getAttribute i = .ok a := by simp [Inst.getAttribute, atR, ha]
    cases a <;> simp [typeOf] at ta
    obtain ⟨s, e⟩ := sum_total hp ht (fun s v => s +. v) (Dbl.zero : F)
    refine ⟨s /. Dbl.ofNat p.length, ?_⟩
    unfold IList.continuousAttributeAverageAt
    rw [h0]
    simp only [res_bind_ok, hg, Attr.isDiscreteIndexed, Attr.isContinuous, Bool.false_eq_true, if_false, if_true]
    rw [e]; rfl
  have key : ∀ k ≤ n, ∃ av, (List.range k).foldlM (fun r i => do
      let added ← p.continuousAttributeAverageAt i
      (pure (r ++ added) : Res (List F))) [] = .ok av ∧ av.length = k := by
    intro k
    induction k with
    | zero => intro _; exact ⟨[], rfl, rfl⟩
    | succ k ih =>
      intro hk
      obtain ⟨av, e, hl⟩ := ih (by omega)
      obtain ⟨a, ea⟩ := hstep k (by omega)
      refine ⟨av ++ [a], ?_, by simp [hl]⟩
      rw [List.range_succ, List.foldlM_append, e, res_bind_ok, List.foldlM_cons, ea]
      rfl
  obtain ⟨av, e, hl⟩ := key n le_rfl
  refine ⟨av, ?_, hl⟩
  unfold IList.continuousAttributeAverage
  rw [h0]
  simp only [res_bind_ok, Inst.attributeSize, types_length (hp x hx), List.length_replicate]
  exact e

theorem contSize_total {x : Inst F} {n : Nat} (hx : typesOf x = List.replicate n .continuous) :
    x.continuousAttributeSize = n := by
  have key : ∀ (as : List (Attr F)) (s : Int), (∀ a ∈ as, typeOf a = .continuous) →
      as.foldl (fun s a => s + a.continuousAttributeSize) s = s + as.length := by
    intro as
    induction as with
    | nil => simp
    | cons a as ih =>
      intro s h
      have ha := h a (by simp)
      rw [List.foldl_cons, ih _ (fun b hb => h b (by simp [hb]))]
      cases a <;> simp [typeOf] at ha
      simp [Attr.continuousAttributeSize]; ring
  have hlen := types_length hx
  rw [List.length_replicate] at hlen
  unfold Inst.continuousAttributeSize
  rw [key, hlen]
  · simp
  · intro a ha
    have : typeOf a ∈ typesOf x := List.mem_map.2 ⟨a, ha, rfl⟩
    rw [hx] at this
    exact List.eq_of_mem_replicate this

theorem covariance_total {p : IList F} (hne : p ≠ []) {n : Nat} (hp : ∀ x ∈ p, typesOf x = List.replicate n .continuous)
    {av : List F} (hav : av.length = n) : ∃ e, p.covariance av = .ok (n, e) := by
  obtain ⟨x, hx, h0⟩ := first_of_ne hne
  unfold IList.covariance
  rw [h0]
  simp only [res_bind_ok, contSize_total (hp x hx)]
  obtain ⟨m, e, _⟩ := foldlM_total (fun _ => True) (fun (m : Nat → Nat → F) (x : Inst F) => (do
    let c ← x.continuousAttributes
    if x.continuousAttributeSize.toNat ≤ (n : Int).toNat ∧ x.continuousAttributeSize.toNat ≤ av.length then
      pure (fun i j =>
        if i < x.continuousAttributeSize.toNat ∧ j < x.continuousAttributeSize.toNat then
          m i j +. ((c.getD i Dbl.zero -. av.getD i Dbl.zero) *. (c.getD j Dbl.zero -. av.getD j Dbl.zero))
        else m i j)
    else .error (.ub "matrix/vector access") : Res (Nat → Nat → F))) p (fun _ _ => Dbl.zero) (by
      intro y hy m _
      obtain ⟨v, ev, _⟩ := toVector_total (hp y hy)
      have ev' : y.continuousAttributes = .ok v := ev
      have hs := contSize_total (hp y hy)
      rw [ev', res_bind_ok, if_pos (by rw [hs]; simp [hav])]
      exact ⟨_, rfl, trivial⟩) trivial
  rw [e]
  exact ⟨_, rfl⟩

theorem discreteCheck_total {x : Inst F} {n : Nat} (hx : typesOf x = List.replicate n .continuous) :
    discreteCheck x = true := by
  unfold discreteCheck
  rw [List.all_eq_true]
  intro a ha
  have : typeOf a ∈ typesOf x := List.mem_map.2 ⟨a, ha, rfl⟩
  rw [hx] at this
  have := List.eq_of_mem_replicate this
  cases a <;> simp [typeOf] at this
  rfl

theorem pooled_total {n : Nat} (parts : Parts F)
    (hp : ∀ p ∈ parts, p ≠ [] ∧ ∀ x ∈ p, typesOf x = List.replicate n .continuous) (total : Nat) :
    ∃ S, Lda.pooledCovariance n parts total = .ok S ∧ S.rows = n ∧ S.cols = n := by
  obtain ⟨S, e, h1, h2⟩ := foldlM_total (fun S : Mat F => S.rows = n ∧ S.cols = n) (fun (cov : Mat F) p => do
    let cc ← Lda.classCovariance p
    (pure (cov.addCaught cc) : Res (Mat F))) parts (Mat.zeros n n) (by
      intro p hpp S hS
      obtain ⟨hne, ht⟩ := hp p hpp
      obtain ⟨av, ea, hav⟩ := contAverage_total hne ht
      obtain ⟨ce, ec⟩ := covariance_total hne ht hav
      have : Lda.classCovariance p = .ok (Mat.scale ⟨n, n, ce⟩ (Dbl.ofInt (p.length - 1 : Int))) := by
        unfold Lda.classCovariance
        rw [ea, res_bind_ok, ec]; rfl
      rw [this, res_bind_ok]
      refine ⟨_, rfl, ?_⟩
      unfold Mat.addCaught
      split
      · exact hS
      · exact hS) ⟨rfl, rfl⟩
  refine ⟨S.divide (Dbl.ofInt (total - parts.length : Int)), ?_, h1, h2⟩
  unfold Lda.pooledCovariance
  rw [e]; rfl

theorem first_instance {l : IList F} (hne : l ≠ []) {ts : List AttrType} (hl : ∀ y ∈ l, OfType ts y) :
    ∃ x0, atR l 0 = .ok x0 ∧ typesOf x0 = ts := by
  obtain ⟨x, hx, h0⟩ := first_of_ne hne
  exact ⟨x, h0, hl x hx⟩

/-- **C214** (linear discriminants, numeric columns) -/
theorem C214_lda (l : IList F) (hne : l ≠ []) (n : Nat) (hl : ∀ y ∈ l, OfType (List.replicate n .continuous) y)
    (inverse : Mat F → Mat F) (hinv : KeepsSize inverse) :
    ∃ m, Lda.train inverse Lda.new l = .ok m ∧ AnswersAll m.predict (OfType (List.replicate n .continuous)) l := by
  obtain ⟨x0, h0, t0⟩ := first_instance hne hl
  obtain ⟨ps, e, _, hz, hps⟩ := labelled_classes l
  have hfo := C07_distinct_class_labels l
  obtain ⟨S, eS, hr, hcc⟩ := pooled_total (n := n) ps (by
    intro p hp
    rw [hps] at hp
    obtain ⟨c, hc, rfl⟩ := List.mem_map.1 hp
    exact ⟨class_ne_nil l c ((hfo.mem_iff c).1 hc), (class_types hl c).1⟩) l.length
  obtain ⟨hir, hic⟩ := hinv S (by omega)
  obtain ⟨m, em, ⟨hprior, hw⟩, hall, _⟩ := foldlM_classes
    (fun m : Lda F => m.prior = l.classDistribution ∧ True)
    (fun m (p : String × IList F) => (∃ v, OMap.find? m.w p.1 = some v) ∧ ∃ v, OMap.find? m.w0 p.1 = some v)
    (Lda.classWeights (inverse S)) (l.getDistinctClassLabels.zip ps)
    { Lda.new with prior := l.classDistribution } (by
      intro p hp m ⟨h1, _⟩
      rw [hz] at hp
      obtain ⟨c, hc, rfl⟩ := List.mem_map.1 hp
      have hc' := (hfo.mem_iff c).1 hc
      obtain ⟨av, ea, hav⟩ := contAverage_total (class_ne_nil l c hc') (class_types hl c).1
      have hm : (inverse S).mulRight av = some ((List.range (inverse S).rows).map (fun i => dotV ((inverse S).row i) av)) := by
        unfold Mat.mulRight; rw [if_pos (by omega)]
      have hd : dotChecked ((List.range (inverse S).rows).map (fun i => dotV ((inverse S).row i) av)) av =
          some (dotV ((List.range (inverse S).rows).map (fun i => dotV ((inverse S).row i) av)) av) := by
        unfold dotChecked; rw [if_pos (by simp; omega)]
      obtain ⟨_, g2, g3⟩ := emplace_good (m := m.w) (Q := fun _ => True) (fun _ _ _ => trivial) c
        ((List.range (inverse S).rows).map (fun i => dotV ((inverse S).row i) av)) trivial
      obtain ⟨_, k2, k3⟩ := emplace_good (m := m.w0) (Q := fun _ => True) (fun _ _ _ => trivial) c
        ((Dbl.lit (-1/2) *. dotV ((List.range (inverse S).rows).map (fun i => dotV ((inverse S).row i) av)) av) +.
          Dbl.log (m.prior.getProbability c : F)) trivial
      refine ⟨Lda.mk m.prior (m.w0.emplace c _) (m.w.emplace c _), ?_, ⟨h1, trivial⟩, ⟨g2, k2⟩, fun b hb => ⟨g3 b.1 hb.1, k3 b.1 hb.2⟩⟩
      unfold Lda.classWeights
      dsimp only
      rw [ea, res_bind_ok, hm]
      dsimp only
      rw [hd]
      rfl)
    ⟨rfl, trivial⟩
  refine ⟨m, ?_, ?_⟩
  · unfold Lda.train
    rw [h0, res_bind_ok, discreteCheck_total t0]
    simp only [Bool.true_eq_false, if_false]
    rw [e, res_bind_ok, contSize_total t0, Int.toNat_natCast, eS, res_bind_ok]
    exact em
  · refine gauss_answers _ l hne hprior _ _ ?_
    intro x hx c hc
    obtain ⟨⟨wi, hwi⟩, w0, hw0⟩ := hall (c, l.filter (fun x => x.label == c)) (by
      rw [hz]; exact List.mem_map.2 ⟨c, (hfo.mem_iff c).2 hc, rfl⟩)
    obtain ⟨v, ev, _⟩ := toVector_total hx
    dsimp only at hwi hw0
    unfold Lda.metric
    simp only [ev, res_bind_ok, findR, hwi, hw0]
    cases dotChecked wi v with
    | none => exact ⟨_, rfl⟩
    | some d => exact ⟨_, rfl⟩

/-- **C214** (quadratic discriminants, numeric columns) -/
theorem C214_qda (l : IList F) (hne : l ≠ []) (n : Nat) (hl : ∀ y ∈ l, OfType (List.replicate n .continuous) y)
    (inverse : Mat F → Mat F) (hinv : KeepsSize inverse) (det : Mat F → F) :
    ∃ m, Qda.train inverse det Qda.new l = .ok m ∧ AnswersAll m.predict (OfType (List.replicate n .continuous)) l := by
  obtain ⟨x0, h0, t0⟩ := first_instance hne hl
  obtain ⟨ps, e, _, hz, hps⟩ := labelled_classes l
  have hfo := C07_distinct_class_labels l
  obtain ⟨m, em, ⟨hprior, _⟩, hall, _⟩ := foldlM_classes
    (fun m : Qda F => m.prior = l.classDistribution ∧ True)
    (fun m (p : String × IList F) => (∃ v, OMap.find? m.W p.1 = some v) ∧ (∃ v, OMap.find? m.w p.1 = some v) ∧
      ∃ v, OMap.find? m.w0 p.1 = some v)
    (Qda.classWeights inverse det) (l.getDistinctClassLabels.zip ps)
    { Qda.new with prior := l.classDistribution } (by
      intro p hp m ⟨h1, _⟩
      rw [hz] at hp
      obtain ⟨c, hc, rfl⟩ := List.mem_map.1 hp
      have hc' := (hfo.mem_iff c).1 hc
      obtain ⟨av, ea, hav⟩ := contAverage_total (class_ne_nil l c hc') (class_types hl c).1
      obtain ⟨ce, ec⟩ := covariance_total (class_ne_nil l c hc') (class_types hl c).1 hav
      obtain ⟨hir, hic⟩ := hinv ⟨n, n, ce⟩ rfl
      dsimp only at hir hic
      generalize hA : inverse ⟨n, n, ce⟩ = A at hir hic
      have hm : A.mulLeft av = some ((List.range A.cols).map (fun j => dotV av (A.col j))) := by
        unfold Mat.mulLeft; rw [if_pos (by omega)]
      have hd : dotChecked ((List.range A.cols).map (fun j => dotV av (A.col j))) av =
          some (dotV ((List.range A.cols).map (fun j => dotV av (A.col j))) av) := by
        unfold dotChecked; rw [if_pos (by simp; omega)]
      obtain ⟨_, f2, f3⟩ := emplace_good (m := m.W) (Q := fun _ => True) (fun _ _ _ => trivial) c
        (A.scale (Dbl.lit (-1/2))) trivial
      obtain ⟨_, g2, g3⟩ := emplace_good (m := m.w) (Q := fun _ => True) (fun _ _ _ => trivial) c
        ((List.range A.cols).map (fun j => dotV av (A.col j))) trivial
      obtain ⟨_, k2, k3⟩ := emplace_good (m := m.w0) (Q := fun _ => True) (fun _ _ _ => trivial) c
        ((Dbl.lit (-1/2) *. (dotV ((List.range A.cols).map (fun j => dotV av (A.col j))) av +.
          Dbl.log (det ⟨n, n, ce⟩))) +. Dbl.log (m.prior.getProbability c : F)) trivial
      refine ⟨Qda.mk m.prior (m.w0.emplace c _) (m.w.emplace c _) (m.W.emplace c _), ?_, ⟨h1, trivial⟩, ⟨f2, g2, k2⟩,
        fun b hb => ⟨f3 b.1 hb.1, g3 b.1 hb.2.1, k3 b.1 hb.2.2⟩⟩
      unfold Qda.classWeights
      dsimp only
      rw [ea, res_bind_ok, ec, res_bind_ok]
      dsimp only
      rw [hA, hm]
      dsimp only
      rw [hd]
      rfl)
    ⟨rfl, trivial⟩
  refine ⟨m, ?_, ?_⟩
  · unfold Qda.train
    rw [h0, res_bind_ok, discreteCheck_total t0]
    simp only [Bool.true_eq_false, if_false]
    rw [e, res_bind_ok]
    exact em
  · refine gauss_answers _ l hne hprior _ _ ?_
    intro x hx c hc
    obtain ⟨⟨Wi, hWi⟩, ⟨wi, hwi⟩, w0, hw0⟩ := hall (c, l.filter (fun x => x.label == c)) (by
      rw [hz]; exact List.mem_map.2 ⟨c, (hfo.mem_iff c).2 hc, rfl⟩)
    obtain ⟨v, ev, _⟩ := toVector_total hx
    dsimp only at hWi hwi hw0
    unfold Qda.metric
    simp only [ev, res_bind_ok, findR, hWi, hwi, hw0]
    split
    · exact ⟨_, rfl⟩
    · exact ⟨_, rfl⟩

/-! ## mixed columns -/

/-- a nominal and a numeric column, as a customer table has them -/
def customers : IList XR :=
  [⟨"stays", [.discrete "city", .continuous (.fin 30)], none⟩, ⟨"stays", [.discrete "town", .continuous (.fin 35)], none⟩,
   ⟨"leaves", [.discrete "city", .continuous (.fin 60)], none⟩, ⟨"leaves", [.discrete "city", .continuous (.fin 70)], none⟩]

/-- the same with the columns the other way round -/
def customersTurned : IList XR := customers.map (fun x => ⟨x.label, x.attrs.reverse, none⟩)

/-- **C214 (refuted for naive Bayes)** With a nominal first column and a numeric second one, training succeeds and no training
instance can be answered: the number is read as a text. With the columns the other way round training dereferences a null
pointer. Nearest mean and nearest neighbours answer. -/
theorem C214_naive_bayes_refuted :
    (∃ ts, (∀ t ∈ ts, NominalOrNumeric t) ∧ (∀ y ∈ customers, OfType ts y) ∧
      ∃ m, NaiveBayes.train NaiveBayes.new customers = .ok m ∧
        ∀ y ∈ customers, m.predict y = .error (.ub "cast to DiscreteAttribute")) ∧
    (∃ ts, (∀ t ∈ ts, NominalOrNumeric t) ∧ (∀ y ∈ customersTurned, OfType ts y) ∧
      NaiveBayes.train NaiveBayes.new customersTurned = .error (.ub "null attribute")) := by
  refine ⟨⟨[.discrete, .continuous], ?_, ?_, ?_⟩, ⟨[.continuous, .discrete], ?_, ?_, ?_⟩⟩
  · simp [NominalOrNumeric]
  · unfold OfType; decide
  · have : ∃ m, NaiveBayes.train NaiveBayes.new customers = .ok m := by
      have h : (NaiveBayes.train NaiveBayes.new customers).isOk = true := by decide +kernel
      cases e : NaiveBayes.train NaiveBayes.new customers with
      | ok m => exact ⟨m, rfl⟩
      | error _ => rw [e] at h; simp [Except.isOk, Except.toBool] at h
    obtain ⟨m, e⟩ := this
    refine ⟨m, e, ?_⟩
    have h : ∀ y ∈ customers, (NaiveBayes.train NaiveBayes.new customers >>= fun m => m.predict y) =
        .error (.ub "cast to DiscreteAttribute") := by decide +kernel
    intro y hy
    have := h y hy
    rwa [e] at this
  · simp [NominalOrNumeric]
  · unfold OfType; decide
  · have h : (NaiveBayes.train NaiveBayes.new customersTurned >>= fun _ => (.ok () : Res Unit)) =
        .error (.ub "null attribute") := by decide +kernel
    cases e : NaiveBayes.train NaiveBayes.new customersTurned with
    | ok m => rw [e] at h; cases h
    | error x => rw [e] at h; cases h; rfl

example : ∃ m, KMeans.train ⟨DD.empty, [], euclidean⟩ customers euclidean = .ok m ∧
    AnswersAll m.predict (OfType [.discrete, .continuous]) customers :=
  C214_nearest_mean customers (by decide) _ (by simp [NominalOrNumeric]) (by unfold OfType; decide) _

/-- ages only -/
def ages : IList XR := customers.map (fun x => ⟨x.label, x.attrs.drop 1, none⟩)

/-- places only -/
def places : IList XR := customers.map (fun x => ⟨x.label, x.attrs.take 1, none⟩)

example : (∃ m, NaiveBayes.train NaiveBayes.new ages = .ok m ∧ AnswersAll m.predict (OfType [.continuous]) ages) ∧
    (∃ m, NaiveBayes.train NaiveBayes.new places = .ok m ∧ AnswersAll m.predict (OfType [.discrete]) places) ∧
    (∃ m, Lda.train id Lda.new ages = .ok m ∧ AnswersAll m.predict (OfType [.continuous]) ages) ∧
    ∃ m, Qda.train id (fun S => S.e 0 0) Qda.new ages = .ok m ∧ AnswersAll m.predict (OfType [.continuous]) ages :=
  ⟨C214_naive_bayes_numeric ages (by decide) 1 (by decide) (by unfold OfType; decide),
   C214_naive_bayes_nominal places (by decide) 1 (by decide) (by unfold OfType; decide),
   C214_lda ages (by decide) 1 (by unfold OfType; decide) id (fun _ _ => ⟨rfl, rfl⟩),
   C214_qda ages (by decide) 1 (by unfold OfType; decide) id (fun _ _ => ⟨rfl, rfl⟩) _⟩

example : (NaiveBayes.train NaiveBayes.new ages >>= fun m => m.predict ⟨"?", [.continuous (.fin 62)], none⟩) = .ok "leaves" := by
  decide +kernel

/-- the nearest neighbours of every customer can be sorted -/
example : ∀ x ∈ customers, OfType [.discrete, .continuous] x ∧
    ∀ y ∈ customers, ∀ d, euclidean y x = .ok d → Dbl.Ord d := by
  have h : ∀ x ∈ customers, ∀ y ∈ customers, ∃ q ∈ [0, 1, 25, 26, 30*30, 40*40, 25*25+1, 35*35+1, 100, (1:ℚ)],
      euclidean y x = .ok (.fin q) := by decide +kernel
  intro x hx
  refine ⟨by revert x; unfold OfType; decide, fun y hy d e => ?_⟩
  obtain ⟨q, _, e'⟩ := h x hx y hy
  rw [e'] at e
  cases e
  simp [Dbl.Ord, Dbl.le, XR.le]

/-- without neighbours the answer is the empty text -/
example : ((⟨[], 0, euclidean⟩ : Knn XR).train customers 0 euclidean).predict ⟨"?", [.discrete "city", .continuous (.fin 30)], none⟩ =
    .ok "" := by decide +kernel

end Verif
