import Verif.Model.Knn
import Verif.Props.SimpleModels

/-! # Properties C49–C51: k nearest neighbours and distances -/

set_option linter.unusedSectionVars false

namespace Verif
open Dbl

section general
variable {F : Type} [Dbl F]

/-- The training instances that may vote for the query `x`: all of them, or for a composite
query those whose label is a possible label of it. -/
def candidates (data : IList F) (x : Inst F) : IList F :=
  match x.possible with
  | none => data
  | some ls => data.filter (fun y => ls.contains y.label)

theorem candidates_eq (data : IList F) (x : Inst F) :
    candidates data x = data.filter (Knn.eligible x) := by
  unfold candidates
  cases h : x.possible with
  | none =>
    have : Knn.eligible x = fun _ => true := by funext y; simp [Knn.eligible, Inst.isComposite, h]
    rw [this]; simp
  | some ls =>
    refine congrArg (fun p => List.filter p data) (funext fun y => ?_)
    simp [Knn.eligible, Inst.isComposite, Inst.possibleLabels, h]

theorem knn_loop (m : Knn F) (x : Inst F) (d : Inst F → F) (l : IList F) :
    (∀ y ∈ l, Knn.eligible x y = true → m.dist y x = .ok (d y)) → ∀ r : List (Inst F × F),
    l.foldlM (fun (r : List (Inst F × F)) y =>
      if Knn.eligible x y then do
        let d ← m.dist y x
        pure (r ++ [(y, d)])
      else (pure r : Res (List (Inst F × F)))) r =
    .ok (r ++ (l.filter (Knn.eligible x)).map (fun y => (y, d y))) := by
  induction l with
  | nil => intro _ r; simp
  | cons y l ih =>
    intro h r
    rw [List.foldlM_cons]
    by_cases hy : Knn.eligible x y = true
    · rw [if_pos hy, h y (by simp) hy]
      simp only [res_bind_ok, res_pure] at ih ⊢
      rw [ih (fun z hz => h z (by simp [hz])), List.filter_cons_of_pos hy]
      simp
    · rw [if_neg hy]
      simp only [res_bind_ok, res_pure] at ih ⊢
      rw [ih (fun z hz => h z (by simp [hz])), List.filter_cons_of_neg hy]

/-- sorting (element, key) pairs by key and forgetting the keys -/
theorem stableSort_pairs {α : Type} (key : α → F) (l : List α) :
    (stableSort (fun (a b : α × F) => a.2 <. b.2) (l.map (fun y => (y, key y)))).map Prod.fst =
    stableSort (fun a b => key a <. key b) l := by
  have hins : ∀ (a : α) (s : List α),
      insertBy (fun (a b : α × F) => a.2 <. b.2) (a, key a) (s.map (fun y => (y, key y))) =
      (insertBy (fun a b => key a <. key b) a s).map (fun y => (y, key y)) := by
    intro a s
    induction s with
    | nil => rfl
    | cons b s ih =>
      simp only [List.map_cons, insertBy]
      split
      · rw [ih]; rfl
      · rfl
  have : stableSort (fun (a b : α × F) => a.2 <. b.2) (l.map (fun y => (y, key y))) =
      (stableSort (fun a b => key a <. key b) l).map (fun y => (y, key y)) := by
    induction l with
    | nil => rfl
    | cons a l ih =>
      show insertBy _ (a, key a) (stableSort _ (l.map _)) = _
      rw [ih, hins]; rfl
  rw [this, List.map_map]
  simp [Function.comp_def]

theorem nearest_eq (m : Knn F) (x : Inst F) (d : Inst F → F)
    (hd : ∀ y ∈ candidates m.data x, m.dist y x = .ok (d y)) :
    m.nearestNeighbors x =
      .ok ((stableSort (fun a b => d a <. d b) (candidates m.data x)).take m.k.toNat) := by
  unfold Knn.nearestNeighbors
  rw [knn_loop m x d m.data (fun y hy he => hd y (by rw [candidates_eq]; simp [hy, he]))]
  simp only [res_bind_ok, res_pure, List.nil_append]
  rw [List.map_take, stableSort_pairs, candidates_eq]

/-- **C49.** The neighbours returned are the first `min(k, m)` elements of the candidates
stably sorted by distance to the query. In particular there are `min(k, m)` of them, none
left out is nearer, and they come in order of distance, ties in training order. -/
theorem C49_nearest [LawfulOrd F] (m : Knn F) (x : Inst F) (d : Inst F → F)
    (hd : ∀ y ∈ candidates m.data x, m.dist y x = .ok (d y))
    (hord : ∀ y ∈ candidates m.data x, Dbl.Ord (d y)) :
    ∃ ns rest, m.nearestNeighbors x = .ok ns ∧
      IsStableSort (fun a b => (a <=. b) = true) d (candidates m.data x) (ns ++ rest) ∧
      ns.length = min m.k.toNat (candidates m.data x).length ∧
      (∀ a ∈ ns, ∀ b ∈ rest, (d a <=. d b) = true) := by
  have hss : IsStableSort (fun a b => (a <=. b) = true) d (candidates m.data x)
      (stableSort (fun a b => d a <. d b) (candidates m.data x)) := by
    have hp := stableSort_perm (fun a b => d a <. d b) (candidates m.data x)
    refine ⟨hp, ?_, ?_⟩
    · have hs := stableSort_sorted (strictWeak_key d) (l := candidates m.data x) hord
      refine hs.imp_of_mem ?_
      intro a b ha hb h
      exact (not_lt_iff_le (hord _ (hp.mem_iff.1 ha)) (hord _ (hp.mem_iff.1 hb))).1 h
    · intro p hpp
      apply stableSort_stable
      intro a ha b hb h1 h2
      exact (not_lt_iff_le (hord _ ha) (hord _ hb)).2 (hpp a ha b hb h1 h2)
  refine ⟨_, (stableSort (fun a b => d a <. d b) (candidates m.data x)).drop m.k.toNat,
    nearest_eq m x d hd, ?_, ?_, ?_⟩
  · rw [List.take_append_drop]; exact hss
  · rw [List.length_take, hss.perm.length_eq]
  · have := hss.sorted
    rw [← List.take_append_drop m.k.toNat (stableSort (fun a b => d a <. d b) (candidates m.data x)),
      List.pairwise_append] at this
    exact this.2.2

theorem foldl_push_map {α β : Type} (f : α → β) (l : List α) : ∀ r : List β,
    l.foldl (fun r x => r ++ [f x]) r = r ++ l.map f := by
  induction l with
  | nil => simp
  | cons a l ih => intro r; rw [List.foldl_cons, ih]; simp

/-- **C50.** Prediction is the majority label of the neighbours; for a composite query without
any candidate it is the first possible label. -/
theorem C50_vote (m : Knn F) (x : Inst F) (ns : IList F) (h : m.nearestNeighbors x = .ok ns) :
    (ns ≠ [] → ∃ c, m.predict x = .ok c ∧ IsMajority (ns.map Inst.label) c) ∧
    (ns = [] → x.isComposite = true → ∀ c rest, x.possibleLabels = c :: rest →
      m.predict x = .ok c) := by
  unfold Knn.predict
  rw [h]
  simp only [res_bind_ok, res_pure]
  constructor
  · intro hne
    have h0 : (ns.length == 0) = false := by
      rw [beq_eq_false_iff_ne]; exact fun e => hne (List.length_eq_zero_iff.1 e)
    rw [h0, Bool.and_false]
    refine ⟨_, rfl, ?_⟩
    have : ns.getClassLabels = ns.map Inst.label := by
      unfold IList.getClassLabels
      rw [foldl_push_map]; simp
    rw [this]
    exact C44_majority _ (by simpa using hne)
  · rintro rfl hc c rest hp
    simp [hc, hp]

theorem nearest_mem (m : Knn F) (x : Inst F) (ns : IList F) (h : m.nearestNeighbors x = .ok ns) :
    ∀ y ∈ ns, y ∈ candidates m.data x := by
  unfold Knn.nearestNeighbors at h
  have key : ∀ (l : IList F) (r0 r : List (Inst F × F)),
      l.foldlM (fun (r : List (Inst F × F)) y =>
        if Knn.eligible x y then do
          let d ← m.dist y x
          pure (r ++ [(y, d)])
        else (pure r : Res (List (Inst F × F)))) r0 = .ok r →
      ∀ q ∈ r, q ∈ r0 ∨ (q.1 ∈ l ∧ Knn.eligible x q.1 = true) := by
    intro l
    induction l with
    | nil => intro r0 r h q hq; cases h; exact .inl hq
    | cons y l ih =>
      intro r0 r h q hq
      rw [List.foldlM_cons] at h
      by_cases hy : Knn.eligible x y = true
      · rw [if_pos hy] at h
        cases hd : m.dist y x with
        | error e => rw [hd] at h; cases h
        | ok d =>
          rw [hd] at h
          rcases ih (r0 ++ [(y, d)]) r h q hq with h1 | h1
          · rcases List.mem_append.1 h1 with h1 | h1
            · exact .inl h1
            · rw [List.mem_singleton] at h1; subst h1; exact .inr ⟨by simp, hy⟩
          · exact .inr ⟨by simp [h1.1], h1.2⟩
      · rw [if_neg hy] at h
        rcases ih r0 r h q hq with h1 | h1
        · exact .inl h1
        · exact .inr ⟨by simp [h1.1], h1.2⟩
  cases h1 : m.data.foldlM (fun (r : List (Inst F × F)) y =>
        if Knn.eligible x y then do
          let d ← m.dist y x
          pure (r ++ [(y, d)])
        else (pure r : Res (List (Inst F × F)))) [] with
  | error e => rw [h1] at h; cases h
  | ok r =>
    rw [h1] at h
    cases h
    intro y hy
    rw [List.mem_map] at hy
    obtain ⟨q, hq, rfl⟩ := hy
    have hq' := (stableSort_perm _ _).mem_iff.1 (List.mem_of_mem_take hq)
    rcases key _ _ _ h1 q hq' with h2 | h2
    · simp at h2
    · rw [candidates_eq]; simp [h2.1, h2.2]

/-- **C50.** A composite query gets one of its possible labels, whatever the distances are. -/
theorem C50_possible (m : Knn F) (x : Inst F) (hx : x.isComposite = true)
    (hp : x.possibleLabels ≠ []) (c : String) (h : m.predict x = .ok c) : c ∈ x.possibleLabels := by
  cases hn : m.nearestNeighbors x with
  | error e => unfold Knn.predict at h; rw [hn] at h; cases h
  | ok ns =>
    obtain ⟨h1, h2⟩ := C50_vote m x ns hn
    by_cases hne : ns = []
    · cases hpl : x.possibleLabels with
      | nil => exact absurd hpl hp
      | cons a r =>
        rw [h2 hne hx a r hpl] at h
        cases h; simp
    · obtain ⟨c', h3, h4⟩ := h1 hne
      rw [h3] at h; cases h
      obtain ⟨y, hy, e⟩ := List.mem_map.1 h4.mem
      have := nearest_mem m x ns hn y hy
      unfold candidates at this
      unfold Inst.isComposite at hx
      unfold Inst.possibleLabels
      cases hpo : x.possible with
      | none => rw [hpo] at hx; simp at hx
      | some ls =>
        rw [hpo] at this
        simp at this
        rw [← e]; exact this.2

/-- **C50.** Class probabilities are the label frequencies among the neighbours. -/
theorem C50_probability (m : Knn ℝ) (x : Inst ℝ) (ns : IList ℝ) (h : m.nearestNeighbors x = .ok ns)
    (hne : ns ≠ []) :
    ∃ p, m.predictProbability x = .ok p ∧
      (∀ c q, (c, q) ∈ p → q = ((ns.map Inst.label).count c : ℝ) / ns.length ∧ 0 < q) ∧
      (p.map Prod.snd).sum = 1 := by
  obtain ⟨h1, _, _, h4⟩ := C47_dummy ns hne
  refine ⟨_, ?_, h1, h4⟩
  unfold Knn.predictProbability
  rw [h]; rfl

/-- a small training set for the examples -/
def exKnn : Knn XR :=
  ⟨[⟨"a", [.continuous (.fin 0)], none⟩, ⟨"b", [.continuous (.fin 5)], none⟩,
    ⟨"b", [.continuous (.fin 7)], none⟩, ⟨"c", [.continuous (.fin 6)], none⟩], 3, euclidean⟩

example : exKnn.predict ⟨"?", [.continuous (.fin 6)], none⟩ = .ok "b" := by decide +kernel
example : exKnn.predict ⟨"?", [.continuous (.fin 6)], some ["z", "a"]⟩ = .ok "a" := by decide +kernel
example : exKnn.predict ⟨"?", [.continuous (.fin 6)], some ["z"]⟩ = .ok "z" := by decide +kernel

end general

/-! ## C51 -/

/-- two attributes of the same kind -/
def SameKind {F : Type} : Attr F → Attr F → Prop
  | .continuous _, .continuous _ => True
  | .discrete _, .discrete _ => True
  | .binary _, .binary _ => True
  | .indexed _ _ _, .indexed _ _ _ => True
  | _, _ => False

/-- contribution of a pair of attributes to the squared distance -/
noncomputable def sqDiff : Attr ℝ → Attr ℝ → ℝ
  | .discrete v, .discrete w => if v = w then 0 else 1
  | .continuous v, .continuous w => (v - w) ^ 2
  | _, _ => 0

theorem euclidStep_real (r : ℝ) (a b : Attr ℝ) : euclidStep r a b = r + sqDiff a b := by
  cases a <;> cases b <;> simp [euclidStep, sqDiff, zpow_ofNat]
  split <;> simp_all

theorem sqDiff_nonneg (a b : Attr ℝ) : 0 ≤ sqDiff a b := by
  cases a <;> cases b <;> simp only [sqDiff, le_refl]
  · positivity
  · split <;> norm_num

theorem sqDiff_comm (a b : Attr ℝ) : sqDiff a b = sqDiff b a := by
  cases a <;> cases b <;> simp only [sqDiff]
  · ring
  · simp only [eq_comm]

/-- **C51.** The distance is the sum over the attributes of squared differences (continuous)
and mismatches (discrete). -/
theorem C51_sum (x y : Inst ℝ) (h : x.attrs.length ≤ y.attrs.length) :
    euclidean x y = .ok ((List.zipWith sqDiff x.attrs y.attrs).sum) := by
  unfold euclidean
  have key : ∀ (l : List (Attr ℝ)) (k : Nat) (r : ℝ), k + l.length ≤ y.attrs.length →
      (l.zipIdx k).foldlM (fun result p => do
        let b ← y.getAttribute p.2
        (pure (euclidStep result p.1 b) : Res ℝ)) r =
      .ok (r + (List.zipWith sqDiff l (y.attrs.drop k)).sum) := by
    intro l
    induction l with
    | nil => intro k r _; simp
    | cons a l ih =>
      intro k r hk
      simp only [List.length_cons] at hk
      have hlt : k < y.attrs.length := by omega
      rw [List.zipIdx_cons, List.foldlM_cons, Inst.getAttribute, atR_ok_of_lt hlt]
      simp only [res_bind_ok]
      rw [List.drop_eq_getElem_cons hlt]
      simp only [List.zipWith_cons_cons, List.sum_cons]
      have := ih (k + 1) (euclidStep r a y.attrs[k]) (by omega)
      simp only [res_pure, res_bind_ok] at this ⊢
      rw [this, euclidStep_real]
      congr 1; ring
  have := key x.attrs 0 ((Dbl.ofInt 0 : ℝ)) (by simpa using h)
  rw [this]; simp

/-- **C51.** A shorter second instance makes the distance throw. -/
theorem C51_short {F : Type} [Dbl F] (x y : Inst F) (h : y.attrs.length < x.attrs.length) :
    euclidean x y = .error (.throw "out_of_range") := by
  unfold euclidean
  have key : ∀ (l : List (Attr F)) (k : Nat) (r : F), k ≤ y.attrs.length →
      y.attrs.length < k + l.length →
      (l.zipIdx k).foldlM (fun result p => do
        let b ← y.getAttribute p.2
        (pure (euclidStep result p.1 b) : Res F)) r = .error (.throw "out_of_range") := by
    intro l
    induction l with
    | nil => intro k r h1 h2; simp at h2; omega
    | cons a l ih =>
      intro k r h1 h2
      rw [List.zipIdx_cons, List.foldlM_cons]
      by_cases hk : k < y.attrs.length
      · rw [Inst.getAttribute, atR_ok_of_lt hk]
        exact ih (k + 1) _ (by omega) (by simp at h2; omega)
      · have : y.getAttribute k = .error (.throw "out_of_range") := by
          simp [Inst.getAttribute, atR, List.getElem?_eq_none (not_lt.1 hk)]
        simp only [this]; rfl
  exact key x.attrs 0 _ (Nat.zero_le _) (by simpa using h)

theorem sum_zero_iff (l m : List (Attr ℝ)) :
    0 ≤ (List.zipWith sqDiff l m).sum ∧
    ((List.zipWith sqDiff l m).sum = 0 ↔ ∀ p ∈ l.zip m, sqDiff p.1 p.2 = 0) := by
  induction l generalizing m with
  | nil => simp
  | cons a l ih =>
    cases m with
    | nil => simp
    | cons b m =>
      obtain ⟨h1, h2⟩ := ih m
      have h3 := sqDiff_nonneg a b
      simp only [List.zipWith_cons_cons, List.sum_cons, List.zip_cons_cons, List.mem_cons,
        forall_eq_or_imp]
      refine ⟨by positivity, ?_⟩
      rw [← h2]
      constructor
      · intro h; constructor <;> linarith
      · rintro ⟨a, b⟩; linarith

/-- **C51.** On instances of the same type the distance is defined, symmetric, non-negative,
and zero exactly when all continuous and plain discrete attributes agree. -/
theorem C51_metric (x y : Inst ℝ) (h : List.Forall₂ SameKind x.attrs y.attrs) :
    ∃ d, euclidean x y = .ok d ∧ euclidean y x = .ok d ∧ 0 ≤ d ∧
      (d = 0 ↔ ∀ p ∈ x.attrs.zip y.attrs,
        (p.1.isContinuous = true ∨ p.1.isDiscrete = true) → p.1 = p.2) := by
  have hlen := h.length_eq
  refine ⟨_, C51_sum x y (by omega), ?_, (sum_zero_iff _ _).1, ?_⟩
  · rw [C51_sum y x (by omega)]
    rw [List.zipWith_comm]
    congr 3
    funext a b; exact sqDiff_comm b a
  · rw [(sum_zero_iff _ _).2]
    have hk : ∀ p ∈ x.attrs.zip y.attrs, SameKind p.1 p.2 := by
      intro p hp
      exact (List.forall₂_iff_zip.1 h).2 hp
    refine forall₂_congr fun p hp => ?_
    have hs := hk p hp
    obtain ⟨a, b⟩ := p
    cases a <;> cases b <;> simp_all [SameKind, sqDiff, Attr.isContinuous, Attr.isDiscrete, sub_eq_zero]

example : List.Forall₂ SameKind ([.continuous 1, .discrete "x"] : List (Attr ℝ))
    [.continuous 2, .discrete "y"] :=
  .cons trivial (.cons trivial .nil)
example : euclidean (⟨"a", [.continuous (.fin 1), .discrete "x"], none⟩ : Inst XR)
    ⟨"b", [.continuous (.fin 3), .discrete "y"], none⟩ = .ok (.fin 5) := by decide +kernel

end Verif
