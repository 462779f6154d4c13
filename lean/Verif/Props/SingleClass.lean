import Verif.Props.Discriminant
import Verif.Props.TrainFloat
import Verif.Props.SimpleModels

/-! # Training data with a class of one instance (C190) -/

namespace Verif
open Dbl

section general
variable {F : Type} [Dbl F]

theorem toVector_gen (x : Inst F) (u : List F) (hx : x.attrs = u.map Attr.continuous) : x.toVector = .ok u := by
  unfold Inst.toVector
  rw [hx]
  have : ∀ (vs r : List F), (vs.map (Attr.continuous)).foldlM (fun r a => do
      let inserted ← a.continuousAttributes
      (pure (r ++ inserted) : Res (List F))) r = .ok (r ++ vs) := by
    intro vs
    induction vs with
    | nil => intro r; simp
    | cons a vs ih =>
      intro r
      rw [List.map_cons, List.foldlM_cons]
      have : (Attr.continuous a).continuousAttributes = .ok [a] := rfl
      rw [this, res_bind_ok, res_pure, res_bind_ok, ih]
      simp
  simpa using this u []

omit [Dbl F] in
theorem contSize_gen (x : Inst F) (u : List F) (hx : x.attrs = u.map Attr.continuous) :
    x.continuousAttributeSize = u.length := by
  unfold Inst.continuousAttributeSize
  rw [hx]
  have : ∀ (u : List F) (s : Int), (u.map (Attr.continuous)).foldl (fun s a => s + a.continuousAttributeSize) s
      = s + u.length := by
    intro u
    induction u with
    | nil => simp
    | cons a u ih =>
      intro s
      rw [List.map_cons, List.foldl_cons, ih]
      simp [Attr.continuousAttributeSize]; ring
  rw [this]; simp

theorem contAt_gen {x : Inst F} {u : List F} (hx : x.attrs = u.map Attr.continuous) {i : Nat} (hi : i < u.length) :
    ContAt x i (u.getD i Dbl.zero) := by
  unfold ContAt
  rw [hx, List.getElem?_map, List.getElem?_eq_getElem hi]
  simp [List.getD_eq_getElem?_getD, List.getElem?_eq_getElem hi]

theorem discreteCheck_gen (x : Inst F) (u : List F) (hx : x.attrs = u.map Attr.continuous) : discreteCheck x = true := by
  rw [← Bool.not_eq_false, C45_discrete_check]
  rintro ⟨s, hs⟩
  rw [hx] at hs
  simp at hs

/-- the mean of a column, in the order of the additions -/
def colMean (p : IList F) (v : Inst F → List F) (i : Nat) : F :=
  (p.foldl (fun s x => s +. (v x).getD i Dbl.zero) Dbl.zero) /. Dbl.ofNat p.length

variable {v : Inst F → List F} {n : Nat}

theorem sumLoop_gen {p : IList F} (hv : ∀ x ∈ p, x.attrs = (v x).map Attr.continuous ∧ (v x).length = n) {i : Nat} (hi : i < n) :
    p.foldlM (fun s x => do
      let w ← x.contAt i
      (pure (s +. w) : Res F)) Dbl.zero = .ok (p.foldl (fun s x => s +. (v x).getD i Dbl.zero) Dbl.zero) := by
  refine foldlM_ok (fun x hx s => ?_) _
  have := getAttribute_cont (contAt_gen (hv x hx).1 (i := i) (by rw [(hv x hx).2]; exact hi))
  simp only [Inst.contAt, this, res_bind_ok, Attr.contVal, res_pure]

theorem contAverage_gen {p : IList F} (hne : p ≠ [])
    (hv : ∀ x ∈ p, x.attrs = (v x).map Attr.continuous ∧ (v x).length = n) :
    p.continuousAttributeAverage = .ok ((List.range n).map (fun (i : Nat) => colMean p v i)) := by
  obtain ⟨x, hx, h0⟩ := first_of_ne hne
  unfold IList.continuousAttributeAverage
  rw [h0]
  have hlen : x.attributeSize = n := by
    rw [Inst.attributeSize, (hv x hx).1, List.length_map, (hv x hx).2]
  simp only [res_bind_ok, hlen]
  have hstep : ∀ i, i < n → p.continuousAttributeAverageAt i = .ok [colMean p v i] := by
    intro i hi
    unfold IList.continuousAttributeAverageAt
    rw [h0]
    simp only [res_bind_ok]
    rw [getAttribute_cont (contAt_gen (hv x hx).1 (i := i) (by rw [(hv x hx).2]; exact hi))]
    simp only [res_bind_ok, Attr.isDiscreteIndexed, Attr.isContinuous, Bool.false_eq_true, if_false, if_true]
    rw [sumLoop_gen hv hi]
    rfl
  have : ∀ (k : Nat), k ≤ n → ∀ r, (List.range k).foldlM (fun r i => do
      let added ← p.continuousAttributeAverageAt i
      (pure (r ++ added) : Res (List F))) r = .ok (r ++ (List.range k).map (fun (i : Nat) => colMean p v i)) := by
    intro k
    induction k with
    | zero => intro _ r; simp
    | succ k ih =>
      intro hk r
      rw [List.range_succ, List.foldlM_append, ih (by omega)]
      simp only [res_bind_ok, List.foldlM_cons, List.foldlM_nil, hstep k (by omega), res_pure]
      simp
  rw [this n le_rfl]; simp

/-- the sums of products of deviations -/
def scatterSum (p : IList F) (v : Inst F → List F) (a : List F) (i j : Nat) : F :=
  p.foldl (fun s x => s +. (((v x).getD i Dbl.zero -. a.getD i Dbl.zero) *. ((v x).getD j Dbl.zero -. a.getD j Dbl.zero))) Dbl.zero

theorem covariance_gen {p : IList F} (hne : p ≠ [])
    (hv : ∀ x ∈ p, x.attrs = (v x).map Attr.continuous ∧ (v x).length = n) (a : List F) (ha : a.length = n) :
    ∃ M, p.covariance a = .ok (n, M) ∧ ∀ i j, i < n → j < n → M i j = scatterSum p v a i j /. Dbl.ofNat (p.length - 1) := by
  obtain ⟨x, hx, h0⟩ := first_of_ne hne
  have hs : x.continuousAttributeSize = n := by rw [contSize_gen x _ (hv x hx).1, (hv x hx).2]
  have loop : ∀ (q : IList F), (∀ x ∈ q, x.attrs = (v x).map Attr.continuous ∧ (v x).length = n) → ∀ m : Nat → Nat → F,
      ∃ m', q.foldlM (fun (m : Nat → Nat → F) x => do
        let c ← x.continuousAttributes
        let k := x.continuousAttributeSize.toNat
        if k ≤ (n : Int).toNat ∧ k ≤ a.length then
          pure (fun i j =>
            if i < k ∧ j < k then
              m i j +. ((c.getD i Dbl.zero -. a.getD i Dbl.zero) *. (c.getD j Dbl.zero -. a.getD j Dbl.zero))
            else m i j)
        else (.error (.ub "matrix/vector access") : Res (Nat → Nat → F))) m = .ok m' ∧ ∀ i j, i < n → j < n →
        m' i j = q.foldl (fun s x => s +. (((v x).getD i Dbl.zero -. a.getD i Dbl.zero) *.
          ((v x).getD j Dbl.zero -. a.getD j Dbl.zero))) (m i j) := by
    intro q
    induction q with
    | nil => intro _ m; exact ⟨m, rfl, fun _ _ _ _ => rfl⟩
    | cons y q ih =>
      intro hq m
      obtain ⟨h1, h2⟩ := hq y (by simp)
      obtain ⟨m', e, hm⟩ := ih (fun x hx => hq x (by simp [hx])) (fun i j =>
            if i < n ∧ j < n then
              m i j +. (((v y).getD i Dbl.zero -. a.getD i Dbl.zero) *. ((v y).getD j Dbl.zero -. a.getD j Dbl.zero))
            else m i j)
      refine ⟨m', ?_, ?_⟩
      · rw [List.foldlM_cons]
        have e1 : y.continuousAttributes = .ok (v y) := toVector_gen y _ h1
        simp only [e1, res_bind_ok, contSize_gen y _ h1, h2, Int.toNat_natCast, ha, le_refl, and_self, if_true, res_pure]
        simp only [Int.toNat_natCast, ha, and_self, res_pure] at e
        exact e
      · intro i j hi hj
        rw [hm i j hi hj, List.foldl_cons, if_pos ⟨hi, hj⟩]
  obtain ⟨m', e, hm⟩ := loop p hv (fun _ _ => Dbl.zero)
  refine ⟨fun i j => m' i j /. Dbl.ofNat (p.length - 1), ?_, fun i j hi hj => by
    show m' i j /. _ = _
    rw [hm i j hi hj]; rfl⟩
  unfold IList.covariance
  rw [h0]
  simp only [res_bind_ok, hs]
  simp only [Int.toNat_natCast, res_pure] at e
  simp only [Int.toNat_natCast, e, res_bind_ok, res_pure]

theorem average_gen (c : String) {p : IList F} (hne : p ≠ []) (hl : ∀ x ∈ p, x.label = c)
    (hv : ∀ x ∈ p, x.attrs = (v x).map Attr.continuous ∧ (v x).length = n) :
    p.average = .ok (c, (((List.range n).map (fun (i : Nat) => colMean p v i)).map Attr.continuous).map some) := by
  obtain ⟨x, hx, h0⟩ := first_of_ne hne
  unfold IList.average
  rw [h0]
  have hlen : x.attributeSize = n := by rw [Inst.attributeSize, (hv x hx).1, List.length_map, (hv x hx).2]
  simp only [res_bind_ok, hlen]
  rw [rangeLoop_ok (fun i => p.attributeAverage i) (fun (i : Nat) => some (.continuous (colMean p v i))) n (by
      intro i hi
      unfold IList.attributeAverage
      rw [h0]
      simp only [res_bind_ok]
      rw [getAttribute_cont (contAt_gen (hv x hx).1 (i := i) (by rw [(hv x hx).2]; exact hi))]
      simp only [res_bind_ok, Attr.isDiscrete, Attr.isContinuous, Bool.false_eq_true, if_false, if_true]
      rw [sumLoop_gen hv hi]
      rfl) []]
  simp [hl x hx, Function.comp_def]

/-- the standard deviation of a column -/
def colSD (p : IList F) (v : Inst F → List F) (i : Nat) : F :=
  Dbl.sqrt ((p.foldl (fun s x => s +. Dbl.pow ((v x).getD i Dbl.zero -. colMean p v i) 2) Dbl.zero) /. Dbl.ofNat (p.length - 1))

theorem sd_gen (c : String) {p : IList F} (hne : p ≠ []) (hl : ∀ x ∈ p, x.label = c)
    (hv : ∀ x ∈ p, x.attrs = (v x).map Attr.continuous ∧ (v x).length = n) :
    p.standardDeviation = .ok (c, (((List.range n).map (fun (i : Nat) => colSD p v i)).map Attr.continuous).map some) := by
  obtain ⟨x, hx, h0⟩ := first_of_ne hne
  unfold IList.standardDeviation
  rw [h0]
  have hlen : x.attributeSize = n := by rw [Inst.attributeSize, (hv x hx).1, List.length_map, (hv x hx).2]
  simp only [res_bind_ok, hlen]
  rw [rangeLoop_ok (fun i => p.attributeStandardDeviation i) (fun (i : Nat) => some (.continuous (colSD p v i))) n (by
      intro i hi
      unfold IList.attributeStandardDeviation
      rw [h0]
      simp only [res_bind_ok]
      rw [getAttribute_cont (contAt_gen (hv x hx).1 (i := i) (by rw [(hv x hx).2]; exact hi))]
      simp only [res_bind_ok, Attr.isContinuous, if_true]
      unfold IList.contStdDev
      rw [sumLoop_gen hv hi]
      simp only [res_bind_ok]
      rw [foldlM_ok (g := fun s x => s +. Dbl.pow ((v x).getD i Dbl.zero -. colMean p v i) 2)]
      · rfl
      · intro y hy s
        have := getAttribute_cont (contAt_gen (hv y hy).1 (i := i) (by rw [(hv y hy).2]; exact hi))
        simp only [Inst.contAt, this, res_bind_ok, Attr.contVal, res_pure]
        rfl) []]
  simp [hl x hx, Function.comp_def]

theorem meanVector_gen (c : String) (vs : List F) :
    NaiveBayes.meanVector (c, (vs.map (Attr.continuous)).map some) = .ok vs := by
  unfold NaiveBayes.meanVector
  rw [nonNull_some]
  simp only [res_bind_ok]
  exact toVector_gen ⟨c, vs.map Attr.continuous, none⟩ vs rfl

end general

variable {L : CMath}

/-! ## NaN -/

theorem D53.div_one (x : D53 L) : x /. Dbl.ofNat 1 = x := by
  have h1 : D53.rnd 1 = 1 := D53.rnd_of_rep (by have := D53.rep_int (n := 1) (by norm_num); simpa using this)
  apply D53.ext'
  show XR.rnd (XR.div x.val (Dbl.ofNat 1 : D53 L).val) = x.val
  rw [D53.val_ofNat]
  have : XR.div x.val (.fin (D53.rnd (1 : ℕ))) = x.val := by
    rw [Nat.cast_one, h1]
    cases x.val <;> simp [XR.div, XR.infSign]
  rw [this, x.ok]

theorem D53.sub_self_val (x : D53 L) : (x -. x).val = .fin 0 ∨ (x -. x).val = .nan := by
  show XR.rnd (XR.add x.val (XR.neg x.val)) = .fin 0 ∨ XR.rnd (XR.add x.val (XR.neg x.val)) = .nan
  cases x.val <;> simp [XR.add, XR.neg, XR.rnd, D53.rnd_zero]

theorem D53.zero_or_nan_div {x : D53 L} (h : x.val = .fin 0 ∨ x.val = .nan) : (x /. Dbl.ofNat 0).val = .nan := by
  show XR.rnd (XR.div x.val (Dbl.ofNat 0 : D53 L).val) = .nan
  rw [D53.val_ofNat]
  rcases h with h | h <;> rw [h] <;> simp [XR.div, XR.infSign, XR.rnd, D53.rnd_zero]

theorem D53.zero_or_nan_mul {x y : D53 L} (hx : x.val = .fin 0 ∨ x.val = .nan) (hy : y.val = .fin 0 ∨ y.val = .nan) :
    (x *. y).val = .fin 0 ∨ (x *. y).val = .nan := by
  show XR.rnd (XR.mul x.val y.val) = .fin 0 ∨ XR.rnd (XR.mul x.val y.val) = .nan
  rcases hx with h | h <;> rcases hy with h' | h' <;> rw [h, h'] <;> simp [XR.mul, XR.rnd, D53.rnd_zero]

theorem nan_mul_right (a b : D53 L) (h : b.val = .nan) : (a *. b).val = .nan := by
  show XR.rnd (XR.mul a.val b.val) = .nan
  rw [h]; cases a.val <;> rfl

theorem nan_div_left (a b : D53 L) (h : a.val = .nan) : (a /. b).val = .nan := by
  show XR.rnd (XR.div a.val b.val) = .nan
  rw [h]; rfl

theorem not_lt_nan (a b : D53 L) (h : b.val = .nan) : (a <. b) = false := by
  show XR.lt a.val b.val = false
  rw [h]; cases a.val <;> rfl

section
variable {v : Inst (D53 L) → List (D53 L)} {n : Nat}

/-- the mean of a single value is the value -/
theorem colMean_single (x : Inst (D53 L)) (i : Nat) : colMean [x] v i = (v x).getD i Dbl.zero := by
  unfold colMean
  simp only [List.foldl_cons, List.foldl_nil, List.length_singleton]
  rw [D53.zero_add, D53.div_one]

/-- the covariance matrix of a single instance is a matrix of NaNs -/
theorem covariance_single (x : Inst (D53 L)) (hx : x.attrs = (v x).map Attr.continuous) (hn : (v x).length = n) :
    ∃ M, IList.covariance [x] ((List.range n).map (fun (i : Nat) => colMean [x] v i)) = .ok (n, M) ∧
      ∀ i j, i < n → j < n → (M i j).val = .nan := by
  obtain ⟨M, e, hM⟩ := covariance_gen (p := [x]) (n := n) (v := v) (by simp) (by simpa using ⟨hx, hn⟩)
    ((List.range n).map (fun (i : Nat) => colMean [x] v i)) (by simp)
  refine ⟨M, e, fun i j hi hj => ?_⟩
  rw [hM i j hi hj]
  have g : ∀ i, i < n → ((List.range n).map (fun (i : Nat) => colMean [x] v i)).getD i Dbl.zero = (v x).getD i Dbl.zero := by
    intro i hi
    rw [List.getD_eq_getElem?_getD, List.getElem?_map, List.getElem?_range hi]
    simp only [Option.map_some, Option.getD_some, colMean_single]
  refine D53.zero_or_nan_div ?_
  unfold scatterSum
  simp only [List.foldl_cons, List.foldl_nil, D53.zero_add]
  rw [g i hi, g j hj]
  exact D53.zero_or_nan_mul (D53.sub_self_val _) (D53.sub_self_val _)

theorem single_filter {F : Type} {l : IList F} {c : String} (h1 : (l.map Inst.label).count c = 1) :
    ∃ x ∈ l, l.filter (fun x => x.label == c) = [x] := by
  have : (l.filter (fun x => x.label == c)).length = 1 := by
    rw [← h1, List.count, List.countP_map, List.countP_eq_length_filter]; rfl
  obtain ⟨x, hx⟩ := List.length_eq_one_iff.1 this
  refine ⟨x, ?_, hx⟩
  have : x ∈ l.filter (fun x => x.label == c) := by rw [hx]; simp
  exact (List.mem_filter.1 this).1

/-- the dot product with a vector of NaNs -/
theorem dotV_nan_left {w u : List (D53 L)} (h : w.length = u.length) (hn : 0 < w.length) (hw : ∀ a ∈ w, a.val = .nan) :
    (dotV w u).val = .nan := by
  cases w with
  | nil => simp at hn
  | cons a w =>
    cases u with
    | nil => simp at h
    | cons b u =>
      unfold dotV
      exact nan_sum (fun p : D53 L × D53 L => p.1 *. p.2) _ _ (.inr ⟨(a, b), by simp, nan_mul _ _ (hw a (by simp))⟩)

theorem dotV_nan_right {w u : List (D53 L)} (h : w.length = u.length) (hn : 0 < w.length) (hu : ∀ a ∈ u, a.val = .nan) :
    (dotV w u).val = .nan := by
  cases w with
  | nil => simp at hn
  | cons a w =>
    cases u with
    | nil => simp at h
    | cons b u =>
      unfold dotV
      exact nan_sum (fun p : D53 L × D53 L => p.1 *. p.2) _ _ (.inr ⟨(a, b), by simp, nan_mul_right _ _ (hu b (by simp))⟩)

/-- a square matrix of NaNs -/
def IsNaN (n : Nat) (S : Mat (D53 L)) : Prop := S.rows = n ∧ S.cols = n ∧ ∀ i j, i < n → j < n → (S.e i j).val = .nan

theorem IsNaN.mulRight {S : Mat (D53 L)} (h : IsNaN n S) (hn : 0 < n) {u : List (D53 L)} (hu : u.length = n) :
    ∃ w, S.mulRight u = some w ∧ w.length = n ∧ ∀ a ∈ w, a.val = .nan := by
  refine ⟨_, by unfold Mat.mulRight; rw [if_pos (by rw [h.2.1, hu])], by simp [h.1], ?_⟩
  intro a ha
  obtain ⟨i, hi, rfl⟩ := List.mem_map.1 ha
  have hi' : i < n := by simpa [h.1] using hi
  refine dotV_nan_left (by simp [Mat.row, h.2.1, hu]) (by simpa [Mat.row, h.2.1] using hn) ?_
  intro b hb
  obtain ⟨j, hj, rfl⟩ := List.mem_map.1 hb
  exact h.2.2 i j hi' (by simpa [h.2.1] using hj)

theorem IsNaN.mulLeft {S : Mat (D53 L)} (h : IsNaN n S) (hn : 0 < n) {u : List (D53 L)} (hu : u.length = n) :
    ∃ w, S.mulLeft u = some w ∧ w.length = n ∧ ∀ a ∈ w, a.val = .nan := by
  refine ⟨_, by unfold Mat.mulLeft; rw [if_pos (by rw [h.1, hu])], by simp [h.2.1], ?_⟩
  intro a ha
  obtain ⟨j, hj, rfl⟩ := List.mem_map.1 ha
  have hj' : j < n := by simpa [h.2.1] using hj
  refine dotV_nan_right (by simp [Mat.col, h.1, hu]) (by omega) ?_
  intro b hb
  obtain ⟨i, hi, rfl⟩ := List.mem_map.1 hb
  exact h.2.2 i j (by simpa [h.1] using hi) hj'

theorem IsNaN.scale {S : Mat (D53 L)} (h : IsNaN n S) (c : D53 L) : IsNaN n (S.scale c) :=
  ⟨h.1, h.2.1, fun i j hi hj => nan_mul _ _ (h.2.2 i j hi hj)⟩

/-! ## LDA -/

/-- with a class of one instance the pooled covariance matrix is a matrix of NaNs -/
theorem pooled_nan (l : IList (D53 L)) (hv : ∀ x ∈ l, x.attrs = (v x).map Attr.continuous ∧ (v x).length = n)
    (c : String) (h1 : (l.map Inst.label).count c = 1) (total : Nat) :
    ∃ S, Lda.pooledCovariance n (l.getDistinctClassLabels.map (fun c => l.filter (fun x => x.label == c))) total = .ok S ∧
      IsNaN n S := by
  have hfo := C07_distinct_class_labels l
  have hclass : ∀ c' ∈ l.map Inst.label, ∃ M, Lda.classCovariance (l.filter (fun x => x.label == c')) = .ok M ∧
      M.rows = n ∧ M.cols = n ∧ (c' = c → IsNaN n M) := by
    intro c' hc'
    have hne := class_ne_nil l c' hc'
    have hvc : ∀ x ∈ l.filter (fun x => x.label == c'), x.attrs = (v x).map Attr.continuous ∧ (v x).length = n :=
      fun x hx => hv x (List.mem_filter.1 hx).1
    by_cases hcc : c' = c
    · subst hcc
      obtain ⟨x, hx, hp⟩ := single_filter h1
      rw [hp] at hvc ⊢
      obtain ⟨M, e, hM⟩ := covariance_single (v := v) x (hv x hx).1 (hv x hx).2
      refine ⟨Mat.scale ⟨n, n, M⟩ (Dbl.ofInt (([x] : IList (D53 L)).length - 1 : Int)), ?_, rfl, rfl, fun _ => ?_⟩
      · unfold Lda.classCovariance
        rw [contAverage_gen (by simp) hvc]
        simp only [res_bind_ok]
        rw [e]
        rfl
      · exact IsNaN.scale (S := ⟨n, n, M⟩) ⟨rfl, rfl, hM⟩ _
    · obtain ⟨M, e, -⟩ := covariance_gen hne hvc ((List.range n).map (fun (i : Nat) => colMean _ v i)) (by simp)
      refine ⟨Mat.scale ⟨n, n, M⟩ (Dbl.ofInt ((l.filter (fun x => x.label == c')).length - 1 : Int)), ?_, rfl, rfl,
        fun h => absurd h hcc⟩
      unfold Lda.classCovariance
      rw [contAverage_gen hne hvc]
      simp only [res_bind_ok]
      rw [e]
      rfl
  have hloop : ∀ (cs : List String), (∀ c ∈ cs, c ∈ l.map Inst.label) → ∀ M0 : Mat (D53 L), M0.rows = n → M0.cols = n →
      ∃ M, (cs.map (fun c => l.filter (fun x => x.label == c))).foldlM (fun (cov : Mat (D53 L)) p => do
        let cc ← Lda.classCovariance p
        (pure (cov.addCaught cc) : Res (Mat (D53 L)))) M0 = .ok M ∧ M.rows = n ∧ M.cols = n ∧
        ((IsNaN n M0 ∨ c ∈ cs) → IsNaN n M) := by
    intro cs
    induction cs with
    | nil => intro _ M0 h1 h2; exact ⟨M0, rfl, h1, h2, by simp⟩
    | cons c' cs ih =>
      intro hc M0 r0 c0
      obtain ⟨M1, e1, r1, c1, hM1⟩ := hclass c' (hc c' (by simp))
      obtain ⟨M, e, r, cc, h⟩ := ih (fun c hc' => hc c (by simp [hc'])) ⟨n, n, fun i j => M0.e i j +. M1.e i j⟩ rfl rfl
      refine ⟨M, ?_, r, cc, ?_⟩
      · rw [List.map_cons, List.foldlM_cons, e1]
        simp only [res_bind_ok]
        rw [← e]
        have : M0.addCaught M1 = ⟨n, n, fun i j => M0.e i j +. M1.e i j⟩ := by
          unfold Mat.addCaught
          rw [if_pos (by rw [r0, r1, c0, c1]; exact ⟨rfl, rfl⟩), r0, c0]
        rw [this]
        rfl
      · intro hh
        refine h ?_
        rcases hh with hh | hh
        · exact .inl ⟨rfl, rfl, fun i j hi hj => nan_add _ _ (.inl (hh.2.2 i j hi hj))⟩
        · rcases List.mem_cons.1 hh with rfl | hh
          · exact .inl ⟨rfl, rfl, fun i j hi hj => nan_add _ _ (.inr ((hM1 rfl).2.2 i j hi hj))⟩
          · exact .inr hh
  obtain ⟨M, e, r, cc, h⟩ := hloop l.getDistinctClassLabels (fun c hc => (hfo.mem_iff c).1 hc) (Mat.zeros n n) rfl rfl
  have hN : IsNaN n M := h (.inr ((hfo.mem_iff c).2 (List.count_pos_iff.1 (by omega))))
  refine ⟨M.divide (Dbl.ofInt (total - (l.getDistinctClassLabels.map (fun c => l.filter (fun x => x.label == c))).length : Int)),
    ?_, hN.1, hN.2.1, fun i j hi hj => nan_div_left _ _ (hN.2.2 i j hi hj)⟩
  unfold Lda.pooledCovariance
  rw [e]; rfl

/-- **C190.** One training instance that is alone in its class makes every discriminant of LDA a NaN: training ends
normally, and every instance, whatever its attributes, is given the most frequent class of the training data. -/
theorem C190_lda_refuted (l : IList (D53 L)) (hn : 0 < n)
    (hv : ∀ x ∈ l, x.attrs = (v x).map Attr.continuous ∧ (v x).length = n)
    (c : String) (h1 : (l.map Inst.label).count c = 1) (inverse : Mat (D53 L) → Mat (D53 L))
    (hinv : ∀ S, IsNaN n S → IsNaN n (inverse S)) :
    ∃ m r, Lda.train inverse Lda.new l = .ok m ∧ IsMajority (l.map Inst.label) r ∧
      ∀ (x : Inst (D53 L)) (u : List (D53 L)), x.attrs = u.map Attr.continuous → u.length = n → x.isComposite = false →
        m.predict x = .ok r := by
  obtain ⟨y, hy, -⟩ := single_filter h1
  have hne : l ≠ [] := List.ne_nil_of_mem hy
  obtain ⟨ps, e, hlen, hz, hps⟩ := labelled_classes l
  have hfo := C07_distinct_class_labels l
  obtain ⟨S, eS, hS⟩ := pooled_nan l hv c h1 l.length
  have hA := hinv S hS
  set A := inverse S with hAdef
  obtain ⟨x0, hx0, h0⟩ := first_of_ne hne
  set avg : String → List (D53 L) := fun c => (List.range n).map (fun (i : Nat) => colMean (l.filter (fun x => x.label == c)) v i) with havg
  have hw : ∀ c, ∃ w, A.mulRight (avg c) = some w ∧ w.length = n ∧ ∀ a ∈ w, a.val = .nan :=
    fun c => hA.mulRight hn (by simp [havg])
  choose W hW1 hW2 hW3 using hw
  set w0 : String → D53 L := fun c => (Dbl.lit (-1/2) *. dotV (W c) (avg c)) +. Dbl.log (l.classDistribution.getProbability c : D53 L)
    with hw0
  have hloop : ∀ (cs : List String), (∀ c ∈ cs, c ∈ l.map Inst.label) → ∀ m : Lda (D53 L), m.prior = l.classDistribution →
      (cs.map (fun c => (c, l.filter (fun x => x.label == c)))).foldlM (Lda.classWeights A) m =
      .ok { m with
        w := cs.foldl (fun m c => OMap.emplace m c (W c)) m.w,
        w0 := cs.foldl (fun m c => OMap.emplace m c (w0 c)) m.w0 } := by
    intro cs
    induction cs with
    | nil => intro _ m _; rfl
    | cons c cs ih =>
      intro hc m hm
      rw [List.map_cons, List.foldlM_cons]
      have hcl := hc c (by simp)
      have : Lda.classWeights A m (c, l.filter (fun x => x.label == c)) =
          .ok { m with w := m.w.emplace c (W c), w0 := m.w0.emplace c (w0 c) } := by
        unfold Lda.classWeights
        rw [contAverage_gen (class_ne_nil l c hcl) (fun x hx => hv x (List.mem_filter.1 hx).1)]
        simp only [res_bind_ok]
        have := hW1 c
        simp only [havg] at this
        rw [this]
        simp only
        have hd : dotChecked (W c) (avg c) = some (dotV (W c) (avg c)) := by
          unfold dotChecked; rw [if_pos (by rw [hW2]; simp [havg])]
        simp only [havg] at hd
        rw [hd]
        simp only [hw0, hm, havg]
        rfl
      rw [this]
      exact ih (fun c hc' => hc c (by simp [hc'])) _ hm
  refine ⟨Lda.mk l.classDistribution
      (l.getDistinctClassLabels.foldl (fun m c => OMap.emplace m c (w0 c)) [])
      (l.getDistinctClassLabels.foldl (fun m c => OMap.emplace m c (W c)) []), l.classDistribution.getMaxItem, ?_,
    by
    have := C46_plain l (⟨"", [], none⟩ : Inst (D53 L)) hne rfl
    exact this, ?_⟩
  · unfold Lda.train
    rw [h0]
    simp only [res_bind_ok]
    rw [discreteCheck_gen x0 (v x0) (hv x0 hx0).1]
    simp only [Bool.true_eq_false, if_false]
    rw [e]
    simp only [res_bind_ok]
    rw [contSize_gen x0 (v x0) (hv x0 hx0).1, (hv x0 hx0).2, Int.toNat_natCast]
    rw [show ps = _ from hps, eS]
    simp only [res_bind_ok]
    rw [← hps, hz, ← hAdef, hloop _ (fun c hc => (hfo.mem_iff c).1 hc) _ rfl]
    rfl
  · intro x u hx hu hp
    have hcand : discCandidates l.classDistribution x = l.classDistribution.getItems := by
      unfold discCandidates
      cases h : x.possible with
      | none => rfl
      | some ls => simp [Inst.isComposite, h] at hp
    unfold Lda.predict
    refine (C52_default l.classDistribution _ x (fun c => dotV (W c) u +. w0 c) ?_ ?_).1 hp
    · intro c hc
      rw [hcand, (C10_class_distribution l).mem_items] at hc
      unfold Lda.metric
      rw [toVector_gen x u hx]
      simp only [res_bind_ok]
      unfold findR
      rw [find?_emplace_fold (fun c => W c), find?_emplace_fold (fun c => w0 c)]
      simp only [(hfo.mem_iff c).2 hc, if_true, OMap.find?_nil, Option.getD_none, res_bind_ok]
      have hd : dotChecked (W c) u = some (dotV (W c) u) := by
        unfold dotChecked; rw [if_pos (by rw [hW2, hu])]
      rw [hd]
      rfl
    · intro c _
      exact not_lt_nan _ _ (nan_add _ _ (.inl (dotV_nan_left (by rw [hW2, hu]) (by rw [hW2]; exact hn) (hW3 c))))

/-! ## QDA and naive Bayes -/

/-- a class whose discriminant is a NaN is predicted only as the most frequent class -/
theorem gauss_never {l : IList (D53 L)} (hne : l ≠ []) {metric : Inst (D53 L) → String → Res (D53 L)} {x : Inst (D53 L)}
    (hp : x.isComposite = false) {μ : String → D53 L} (hμ : ∀ c ∈ l.map Inst.label, metric x c = .ok (μ c))
    {c : String} (hc : (μ c).val = .nan) :
    ∃ r, gaussPredict l.classDistribution metric x = .ok r ∧ (r = c → IsMajority (l.map Inst.label) r) := by
  obtain ⟨r, hr, h⟩ := gauss_fold l.classDistribution (metric x) μ l.classDistribution.getItems (by
    intro c' hc' _
    exact hμ c' (((C10_class_distribution l).mem_items c').1 hc')) (l.classDistribution.getMaxItem, Dbl.neg Dbl.maxVal)
  refine ⟨r.1, ?_, ?_⟩
  · unfold gaussPredict gaussInit
    rw [hp]
    simp only [Bool.false_eq_true, if_false, res_pure, res_bind_ok, hr]
  · intro e
    rcases h with ⟨h1, _⟩ | ⟨l1, q, l2, _, h2, h3, _, _⟩
    · rw [h1]
      have := C46_plain l (⟨"", [], none⟩ : Inst (D53 L)) hne rfl
      exact this
    · rw [h2] at e
      simp only at e
      subst e
      rw [not_lt_nan _ _ hc] at h3
      cases h3

/-- **C190.** QDA: the discriminant of a class of one instance is a NaN for every instance, so no instance, not even the
training instance itself, is given that class because of its attributes: the class is answered only where the most
frequent class is answered by default. -/
theorem C190_qda_refuted (l : IList (D53 L)) (hn : 0 < n)
    (hv : ∀ x ∈ l, x.attrs = (v x).map Attr.continuous ∧ (v x).length = n)
    (c : String) (h1 : (l.map Inst.label).count c = 1) (inverse : Mat (D53 L) → Mat (D53 L)) (det : Mat (D53 L) → D53 L)
    (hsq : ∀ S : Mat (D53 L), S.rows = n → S.cols = n → (inverse S).rows = n ∧ (inverse S).cols = n)
    (hinv : ∀ S, IsNaN n S → IsNaN n (inverse S)) :
    ∃ m, Qda.train inverse det Qda.new l = .ok m ∧
      ∀ (x : Inst (D53 L)) (u : List (D53 L)), x.attrs = u.map Attr.continuous → u.length = n → x.isComposite = false →
        ∃ s r, m.metric x c = .ok s ∧ s.val = .nan ∧ m.predict x = .ok r ∧ (r = c → IsMajority (l.map Inst.label) r) := by
  obtain ⟨y, hy, hyc⟩ := single_filter h1
  have hne : l ≠ [] := List.ne_nil_of_mem hy
  have hcl : c ∈ l.map Inst.label := List.count_pos_iff.1 (by omega)
  obtain ⟨ps, e, hlen, hz, hps⟩ := labelled_classes l
  have hfo := C07_distinct_class_labels l
  obtain ⟨x0, hx0, h0⟩ := first_of_ne hne
  set avg : String → List (D53 L) := fun c => (List.range n).map (fun (i : Nat) => colMean (l.filter (fun x => x.label == c)) v i) with havg
  have hvc : ∀ c', ∀ x ∈ l.filter (fun x => x.label == c'), x.attrs = (v x).map Attr.continuous ∧ (v x).length = n :=
    fun c' x hx => hv x (List.mem_filter.1 hx).1
  have hS : ∀ c', ∃ M, c' ∈ l.map Inst.label → IList.covariance (l.filter (fun x => x.label == c')) (avg c') = .ok (n, M) ∧
      (c' = c → IsNaN n ⟨n, n, M⟩) := by
    intro c'
    by_cases hc' : c' ∈ l.map Inst.label
    · by_cases hcc : c' = c
      · subst hcc
        obtain ⟨M, e, hM⟩ := covariance_single (v := v) y (hv y hy).1 (hv y hy).2
        exact ⟨M, fun _ => ⟨by simp only [havg, hyc]; exact e, fun _ => ⟨rfl, rfl, hM⟩⟩⟩
      · obtain ⟨M, e, -⟩ := covariance_gen (class_ne_nil l c' hc') (hvc c') (avg c') (by simp [havg])
        exact ⟨M, fun _ => ⟨e, fun h => absurd h hcc⟩⟩
    · exact ⟨fun _ _ => Dbl.zero, fun h => absurd h hc'⟩
  choose M hM using hS
  set A : String → Mat (D53 L) := fun c => inverse ⟨n, n, M c⟩ with hA
  have hAs : ∀ c, (A c).rows = n ∧ (A c).cols = n := fun c => hsq _ rfl rfl
  have hAn : IsNaN n (A c) := hinv _ ((hM c hcl).2 rfl)
  set W : String → List (D53 L) := fun c => (List.range (A c).cols).map (fun (j : Nat) => dotV (avg c) ((A c).col j)) with hW
  have hW1 : ∀ c, (A c).mulLeft (avg c) = some (W c) := by
    intro c
    unfold Mat.mulLeft
    rw [if_pos (by rw [(hAs c).1]; simp [havg])]
  have hW2 : ∀ c, (W c).length = n := fun c => by simp [hW, (hAs c).2]
  set w0 : String → D53 L := fun c => (Dbl.lit (-1/2) *. (dotV (W c) (avg c) +. Dbl.log (det ⟨n, n, M c⟩))) +.
    Dbl.log (l.classDistribution.getProbability c : D53 L) with hw0
  set WW : String → Mat (D53 L) := fun c => (A c).scale (Dbl.lit (-1/2)) with hWW
  have hloop : ∀ (cs : List String), (∀ c ∈ cs, c ∈ l.map Inst.label) → ∀ m : Qda (D53 L), m.prior = l.classDistribution →
      (cs.map (fun c => (c, l.filter (fun x => x.label == c)))).foldlM (Qda.classWeights inverse det) m =
      .ok { m with
        W := cs.foldl (fun m c => OMap.emplace m c (WW c)) m.W,
        w := cs.foldl (fun m c => OMap.emplace m c (W c)) m.w,
        w0 := cs.foldl (fun m c => OMap.emplace m c (w0 c)) m.w0 } := by
    intro cs
    induction cs with
    | nil => intro _ m _; rfl
    | cons c cs ih =>
      intro hc m hm
      rw [List.map_cons, List.foldlM_cons]
      have hcl := hc c (by simp)
      have : Qda.classWeights inverse det m (c, l.filter (fun x => x.label == c)) =
          .ok { m with W := m.W.emplace c (WW c), w := m.w.emplace c (W c), w0 := m.w0.emplace c (w0 c) } := by
        unfold Qda.classWeights
        rw [contAverage_gen (class_ne_nil l c hcl) (hvc c)]
        simp only [res_bind_ok]
        have e1 := (hM c hcl).1
        simp only [havg] at e1
        rw [e1]
        simp only [res_bind_ok]
        have e2 := hW1 c
        simp only [havg, hA] at e2
        rw [e2]
        simp only
        have hd : dotChecked (W c) (avg c) = some (dotV (W c) (avg c)) := by
          unfold dotChecked; rw [if_pos (by rw [hW2]; simp [havg])]
        simp only [havg] at hd
        rw [hd]
        simp only [hw0, hm, havg, hWW, hA]
        rfl
      rw [this]
      exact ih (fun c hc' => hc c (by simp [hc'])) _ hm
  refine ⟨Qda.mk l.classDistribution
      (l.getDistinctClassLabels.foldl (fun m c => OMap.emplace m c (w0 c)) [])
      (l.getDistinctClassLabels.foldl (fun m c => OMap.emplace m c (W c)) [])
      (l.getDistinctClassLabels.foldl (fun m c => OMap.emplace m c (WW c)) []), ?_, ?_⟩
  · unfold Qda.train
    rw [h0]
    simp only [res_bind_ok]
    rw [discreteCheck_gen x0 (v x0) (hv x0 hx0).1]
    simp only [Bool.true_eq_false, if_false]
    rw [e]
    simp only [res_bind_ok]
    rw [hz, hloop _ (fun c hc => (hfo.mem_iff c).1 hc) _ rfl]
    rfl
  · intro x u hx hu hp
    set Q : String → List (D53 L) := fun c => (List.range (WW c).cols).map (fun (j : Nat) => dotV u ((WW c).col j)) with hQ
    set μ : String → D53 L := fun c => (dotV (Q c) u +. dotV (W c) u) +. w0 c with hμd
    have hμ : ∀ c' ∈ l.map Inst.label, Qda.metric (Qda.mk l.classDistribution
      (l.getDistinctClassLabels.foldl (fun m c => OMap.emplace m c (w0 c)) [])
      (l.getDistinctClassLabels.foldl (fun m c => OMap.emplace m c (W c)) [])
      (l.getDistinctClassLabels.foldl (fun m c => OMap.emplace m c (WW c)) [])) x c' = .ok (μ c') := by
      intro c' hc'
      unfold Qda.metric
      rw [toVector_gen x u hx]
      simp only [res_bind_ok]
      unfold findR
      rw [find?_emplace_fold (fun c => WW c), find?_emplace_fold (fun c => W c), find?_emplace_fold (fun c => w0 c)]
      simp only [(hfo.mem_iff c').2 hc', if_true, OMap.find?_nil, Option.getD_none, res_bind_ok]
      have hq : (WW c').mulLeft u = some (Q c') := by
        unfold Mat.mulLeft
        rw [if_pos (by show (A c').rows = _; rw [(hAs c').1, hu])]
      have hq2 : dotChecked (Q c') u = some (dotV (Q c') u) := by
        unfold dotChecked
        rw [if_pos (by rw [hu]; simp only [hQ, List.length_map, List.length_range]; exact (hAs c').2)]
      have hd : dotChecked (W c') u = some (dotV (W c') u) := by
        unfold dotChecked; rw [if_pos (by rw [hW2, hu])]
      rw [hq, Option.bind_some, hq2, hd]
      rfl
    have hcn : (μ c).val = .nan := by
      refine nan_add _ _ (.inl (nan_add _ _ (.inr ?_)))
      obtain ⟨w, e1, e2, e3⟩ := hAn.mulLeft hn (u := avg c) (by simp [havg])
      rw [hW1 c] at e1
      cases e1
      exact dotV_nan_left (by rw [hW2, hu]) (by rw [hW2]; exact hn) e3
    obtain ⟨r, hr, hrc⟩ := gauss_never hne hp hμ hcn
    exact ⟨_, r, hμ c hcl, hcn, hr, hrc⟩

/-- what is asked of the functions of `<cmath>`: the square of zero is zero; squares and square roots of NaNs are NaNs -/
structure SquareNaN (L : CMath) : Prop where
  pow_zero : L.pow (.fin 0) 2 = .fin 0
  pow_nan : L.pow .nan 2 = .nan
  sqrt_nan : L.sqrt .nan = .nan

theorem SquareNaN.pow {L : CMath} (hL : SquareNaN L) {a : D53 L} (h : a.val = .nan) : (Dbl.pow a 2).val = .nan := by
  show XR.rnd (L.pow a.val 2) = .nan
  rw [h, hL.pow_nan]; rfl

theorem colSD_single (hL : SquareNaN L) (x : Inst (D53 L)) (i : Nat) : (colSD [x] v i).val = .nan := by
  unfold colSD
  show XR.rnd (L.sqrt _) = .nan
  have : ((List.foldl (fun s z => s +. Dbl.pow ((v z).getD i Dbl.zero -. colMean [x] v i) 2) Dbl.zero [x]) /.
      Dbl.ofNat (([x] : IList (D53 L)).length - 1)).val = .nan := by
    refine D53.zero_or_nan_div ?_
    simp only [List.foldl_cons, List.foldl_nil, D53.zero_add, colMean_single]
    rcases D53.sub_self_val ((v x).getD i Dbl.zero) with h | h
    · left
      show XR.rnd (L.pow _ 2) = _
      rw [h, hL.pow_zero]
      simp [XR.rnd, D53.rnd_zero]
    · exact .inr (hL.pow h)
  rw [this, hL.sqrt_nan]
  rfl

/-- the sum of `logLikelihoodContinuous` over the attributes -/
theorem nb_sum_gen {F : Type} [Dbl F] (means devs : List F) (n : Nat) (hm : means.length = n) (hd : devs.length = n) :
    ∀ (u : List F) (k : Nat) (s : F), k + u.length ≤ n →
      ((u.map Attr.continuous).zipIdx k).foldlM (NaiveBayes.contStep means devs) s =
        .ok ((u.zipIdx k).foldl (fun s p => s +. (Dbl.lit (-1/2) *.
          Dbl.pow ((p.1 -. means.getD p.2 Dbl.zero) /. devs.getD p.2 Dbl.zero) 2)) s) := by
  intro u
  induction u with
  | nil => intro k s _; rfl
  | cons a u ih =>
    intro k s hk
    rw [List.length_cons] at hk
    have g : ∀ w : List F, w.length = n → idxR w k = .ok (w.getD k Dbl.zero) := by
      intro w hw
      unfold idxR
      rw [List.getD_eq_getElem?_getD, List.getElem?_eq_getElem (by omega)]
      rfl
    rw [List.map_cons, List.zipIdx_cons, List.zipIdx_cons, List.foldlM_cons, List.foldl_cons]
    have : NaiveBayes.contStep means devs s (Attr.continuous a, k) = .ok (s +. (Dbl.lit (-1/2) *.
        Dbl.pow ((a -. means.getD k Dbl.zero) /. devs.getD k Dbl.zero) 2)) := by
      unfold NaiveBayes.contStep
      simp only [Attr.contVal, res_bind_ok, g means hm, g devs hd, res_pure]
    rw [this, res_bind_ok, ih (k + 1) _ (by omega)]

/-- **C190.** Naive Bayes on continuous attributes: the score of a class of one instance is a NaN for every instance, so
no instance, not even the training instance itself, is given that class because of its attributes. -/
theorem C190_naive_bayes_refuted (hL : SquareNaN L) (l : IList (D53 L)) (hn : 0 < n)
    (hv : ∀ x ∈ l, x.attrs = (v x).map Attr.continuous ∧ (v x).length = n)
    (c : String) (h1 : (l.map Inst.label).count c = 1) :
    ∃ m, NaiveBayes.train NaiveBayes.new l = .ok m ∧
      ∀ (x : Inst (D53 L)) (u : List (D53 L)), x.attrs = u.map Attr.continuous → u.length = n → x.isComposite = false →
        ∃ s r, m.metric x c = .ok s ∧ s.val = .nan ∧ m.predict x = .ok r ∧ (r = c → IsMajority (l.map Inst.label) r) := by
  obtain ⟨y, hy, hyc⟩ := single_filter h1
  have hne : l ≠ [] := List.ne_nil_of_mem hy
  have hcl : c ∈ l.map Inst.label := List.count_pos_iff.1 (by omega)
  obtain ⟨ps, e, hlen, hz, hps⟩ := labelled_classes l
  have hfo := C07_distinct_class_labels l
  have hvc : ∀ c', ∀ x ∈ l.filter (fun x => x.label == c'), x.attrs = (v x).map Attr.continuous ∧ (v x).length = n :=
    fun c' x hx => hv x (List.mem_filter.1 hx).1
  set avg : String → List (D53 L) := fun c => (List.range n).map (fun (i : Nat) => colMean (l.filter (fun x => x.label == c)) v i) with havg
  set sd : String → List (D53 L) := fun c => (List.range n).map (fun (i : Nat) => colSD (l.filter (fun x => x.label == c)) v i) with hsd
  have hloop : ∀ (cs : List String), (∀ c ∈ cs, c ∈ l.map Inst.label) → ∀ m : NaiveBayes (D53 L),
      (cs.map (fun c => (c, l.filter (fun x => x.label == c)))).foldlM NaiveBayes.contClass m =
      .ok { m with
        classMeans := cs.foldl (fun m c => OMap.emplace m c (avg c)) m.classMeans,
        classDeviations := cs.foldl (fun m c => OMap.emplace m c (sd c)) m.classDeviations } := by
    intro cs
    induction cs with
    | nil => intro _ m; rfl
    | cons c cs ih =>
      intro hc m
      rw [List.map_cons, List.foldlM_cons]
      have hcl := hc c (by simp)
      have hlab : ∀ x ∈ l.filter (fun x => x.label == c), x.label = c := by
        intro y hy; simpa using (List.mem_filter.1 hy).2
      have : NaiveBayes.contClass m (c, l.filter (fun x => x.label == c)) =
          .ok { m with classMeans := OMap.emplace m.classMeans c (avg c),
                       classDeviations := OMap.emplace m.classDeviations c (sd c) } := by
        unfold NaiveBayes.contClass
        simp only
        rw [average_gen c (class_ne_nil l c hcl) hlab (hvc c), sd_gen c (class_ne_nil l c hcl) hlab (hvc c)]
        simp only [res_bind_ok]
        rw [meanVector_gen, meanVector_gen]
        rfl
      rw [this]
      exact ih (fun c hc' => hc c (by simp [hc'])) _
  refine ⟨NaiveBayes.mk l.classDistribution (l.getDistinctClassLabels.foldl (fun m c => OMap.emplace m c (avg c)) [])
    (l.getDistinctClassLabels.foldl (fun m c => OMap.emplace m c (sd c)) []) [], ?_, ?_⟩
  · unfold NaiveBayes.train
    rw [e]
    simp only [res_bind_ok]
    obtain ⟨c0, cs, hcs⟩ : ∃ c0 cs, l.getDistinctClassLabels = c0 :: cs :=
      List.exists_cons_of_ne_nil (List.ne_nil_of_mem ((hfo.mem_iff c).2 hcl))
    have hc0 : c0 ∈ l.map Inst.label := by rw [← hfo.mem_iff, hcs]; simp
    have hp0 : atR ps 0 = .ok (l.filter (fun x => x.label == c0)) := by rw [hps, hcs]; rfl
    rw [hp0]
    obtain ⟨z, hz', h0⟩ := first_of_ne (class_ne_nil l c0 hc0)
    have hg := getAttribute_cont (contAt_gen (hvc c0 z hz').1 (i := 0) (by rw [(hvc c0 z hz').2]; exact hn))
    simp only [res_bind_ok, h0, hg, Attr.isDiscrete, Bool.false_eq_true, if_false]
    rw [hz, hloop _ (fun c hc => (hfo.mem_iff c).1 hc)]
    rfl
  · intro x u hx hu hp
    have hxl : ¬ x.attrs.length = 0 := by rw [hx, List.length_map, hu]; omega
    set μ : String → D53 L := fun c => (u.zipIdx 0).foldl (fun s p => s +. (Dbl.lit (-1/2) *.
          Dbl.pow ((p.1 -. (avg c).getD p.2 Dbl.zero) /. (sd c).getD p.2 Dbl.zero) 2))
          (Dbl.log (l.classDistribution.getProbability c : D53 L)) with hμd
    have hμ : ∀ c' ∈ l.map Inst.label, NaiveBayes.metric (NaiveBayes.mk l.classDistribution
      (l.getDistinctClassLabels.foldl (fun m c => OMap.emplace m c (avg c)) [])
      (l.getDistinctClassLabels.foldl (fun m c => OMap.emplace m c (sd c)) []) []) x c' = .ok (μ c') := by
      intro c' hc'
      unfold NaiveBayes.metric
      simp only [List.isEmpty_nil, if_true]
      unfold NaiveBayes.logLikelihoodContinuous NaiveBayes.lookupFor
      rw [if_neg hxl, if_neg hxl]
      unfold findR
      rw [find?_emplace_fold (fun c => avg c), find?_emplace_fold (fun c => sd c)]
      simp only [(hfo.mem_iff c').2 hc', if_true, OMap.find?_nil, Option.getD_none, res_bind_ok]
      rw [hx]
      exact nb_sum_gen (avg c') (sd c') n (by simp [havg]) (by simp [hsd]) u 0 _ (by omega)
    have hcn : (μ c).val = .nan := by
      obtain ⟨a, u', hau⟩ : ∃ a u', u = a :: u' := List.exists_cons_of_ne_nil (by rintro rfl; simp at hu; omega)
      simp only [hμd]
      refine nan_sum (fun p : D53 L × Nat => Dbl.lit (-1/2) *.
          Dbl.pow ((p.1 -. (avg c).getD p.2 Dbl.zero) /. (sd c).getD p.2 Dbl.zero) 2) _ _
        (.inr ⟨(a, 0), by rw [hau, List.zipIdx_cons]; simp, nan_mul_right _ _ (hL.pow (nan_div _ _ ?_))⟩)
      have : (sd c).getD 0 Dbl.zero = colSD [y] v 0 := by
        simp only [hsd, hyc]
        rw [List.getD_eq_getElem?_getD, List.getElem?_map, List.getElem?_range hn]
        rfl
      rw [this]
      exact colSD_single hL y 0
    obtain ⟨r, hr, hrc⟩ := gauss_never hne hp hμ hcn
    exact ⟨_, r, hμ c hcl, hcn, hr, hrc⟩

end

/-- two classes with two instances each, far apart, and a third class with one instance -/
def loneData : IList (D53 coarseMath) :=
  [⟨"a", [.continuous (Dbl.ofInt 0)], none⟩, ⟨"a", [.continuous (Dbl.ofInt 1)], none⟩,
   ⟨"b", [.continuous (Dbl.ofInt 1000)], none⟩, ⟨"b", [.continuous (Dbl.ofInt 1001)], none⟩,
   ⟨"c", [.continuous (Dbl.ofInt 5)], none⟩]

/-- the values of the attributes -/
def loneValues (x : Inst (D53 coarseMath)) : List (D53 coarseMath) :=
  x.attrs.filterMap (fun a => match a with | .continuous v => some v | _ => none)

/-- the data meet the hypotheses … -/
example : 0 < 1 ∧ (∀ x ∈ loneData, x.attrs = (loneValues x).map Attr.continuous ∧ (loneValues x).length = 1) ∧
    (loneData.map Inst.label).count "c" = 1 := by
  refine ⟨by decide, ?_, by decide⟩
  intro x hx
  simp only [loneData, List.mem_cons, List.not_mem_nil, or_false] at hx
  rcases hx with rfl | rfl | rfl | rfl | rfl <;> exact ⟨rfl, rfl⟩

/-- … a library that leaves NaNs alone meets the others (1×1 matrices) … -/
example : let inverse : Mat (D53 coarseMath) → Mat (D53 coarseMath) := fun S => ⟨S.rows, S.cols, fun i j => Dbl.one /. S.e i j⟩
    (∀ S, IsNaN 1 S → IsNaN 1 (inverse S)) ∧
    (∀ S : Mat (D53 coarseMath), S.rows = 1 → S.cols = 1 → (inverse S).rows = 1 ∧ (inverse S).cols = 1) :=
  ⟨fun _ h => ⟨h.1, h.2.1, fun i j hi hj => nan_div _ _ (h.2.2 i j hi hj)⟩, fun _ h h' => ⟨h, h'⟩⟩

example : SquareNaN coarseMath := ⟨rfl, rfl, rfl⟩

/-- … and an instance in the middle of class `b` is given class `a`; without the lone instance it is given class `b` -/
example : let inverse : Mat (D53 coarseMath) → Mat (D53 coarseMath) := fun S => ⟨S.rows, S.cols, fun i j => Dbl.one /. S.e i j⟩
    let x : Inst (D53 coarseMath) := ⟨"?", [.continuous (Dbl.ofInt 1000)], none⟩
    (do (← Lda.train inverse Lda.new loneData).predict x) = .ok "a" ∧
    (do (← Lda.train inverse Lda.new (loneData.take 4)).predict x) = .ok "b" := by decide +kernel

end Verif
