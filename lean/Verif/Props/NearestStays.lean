import Verif.Spec.Towards
import Verif.Props.Distance
import Verif.Props.Knn

/-! # Property C217: on the way to the nearest neighbour it remains the nearest -/

namespace Verif
open Dbl

theorem candidates_congr {data : IList ℝ} {x z : Inst ℝ} (h : z.possible = x.possible) : candidates data z = candidates data x := by
  unfold candidates; rw [h]

theorem nearest_stays {data : IList ℝ} {dist : Inst ℝ → Inst ℝ → Res ℝ} {old : Knn ℝ} {x z y : Inst ℝ} {dx dz : Inst ℝ → ℝ}
    (hp : z.possible = x.possible) (hx : ∀ w ∈ candidates data x, dist w x = .ok (dx w))
    (hz : ∀ w ∈ candidates data x, dist w z = .ok (dz w))
    (hdown : y ∈ candidates data x → ∀ w ∈ candidates data x, dz w ≤ dz y → dx w ≤ dx y)
    (hup : y ∈ candidates data x → ∀ w ∈ candidates data x, dx y ≤ dx w → dz y ≤ dz w)
    (h : (old.train data 1 dist).nearestNeighbors x = .ok [y]) :
    (old.train data 1 dist).nearestNeighbors z = .ok [y] := by
  set C := candidates data x with hC
  have hCz : candidates data z = C := candidates_congr hp
  obtain ⟨ns, rest, e, hsort, hlen, hle⟩ := C49_nearest (old.train data 1 dist) x dx hx (fun _ _ => by simp [Dbl.Ord])
  rw [h] at e
  cases e
  obtain ⟨ns', rest', e', hsort', hlen', hle'⟩ := C49_nearest (old.train data 1 dist) z dz
    (by rw [show candidates (old.train data 1 dist).data z = C from hCz]; exact hz) (fun _ _ => by simp [Dbl.Ord])
  have hd : (old.train data 1 dist).data = data := rfl
  rw [hd] at hsort hsort' hlen'
  rw [hCz] at hsort' hlen'
  rw [← hC] at hsort
  have hyC : y ∈ C := hsort.perm.mem_iff.1 (by simp)
  have hpos : 1 ≤ C.length := List.length_pos_of_mem hyC
  have hk : (old.train data 1 dist).k.toNat = 1 := rfl
  rw [hk, Nat.min_eq_left hpos] at hlen'
  obtain ⟨y', rfl⟩ := List.length_eq_one_iff.1 hlen'
  rw [e']
  have hy'C : y' ∈ C := hsort'.perm.mem_iff.1 (by simp)
  have minx : ∀ w ∈ C, dx y ≤ dx w := by
    intro w hw
    have := hsort.perm.mem_iff.2 hw
    simp only [List.cons_append, List.nil_append, List.mem_cons] at this
    rcases this with rfl | hr
    · exact le_refl _
    · simpa using hle y (by simp) w hr
  have minz : ∀ w ∈ C, dz y' ≤ dz w := by
    intro w hw
    have := hsort'.perm.mem_iff.2 hw
    simp only [List.cons_append, List.nil_append, List.mem_cons] at this
    rcases this with rfl | hr
    · exact le_refl _
    · simpa using hle' y' (by simp) w hr
  have ez : dz y' = dz y := le_antisymm (minz y hyC) (hup hyC y' hy'C (minx y' hy'C))
  -- the nearest ones of `x`, in the order of training, begin with `y`
  have fx := hsort.stable (fun w => decide (dx w = dx y)) (by
    intro a _ b _ ha hb
    simp only [decide_eq_true_eq] at ha hb
    simp [ha, hb])
  have fz := hsort'.stable (fun w => decide (dz w = dz y)) (by
    intro a _ b _ ha hb
    simp only [decide_eq_true_eq] at ha hb
    simp [ha, hb])
  simp only [List.cons_append, List.nil_append] at fx fz
  rw [List.filter_cons_of_pos (by simp)] at fx
  rw [List.filter_cons_of_pos (by simp [ez])] at fz
  have hsub : C.filter (fun w => decide (dz w = dz y)) =
      (C.filter (fun w => decide (dx w = dx y))).filter (fun w => decide (dz w = dz y)) := by
    rw [List.filter_filter]
    apply List.filter_congr
    intro w hw
    by_cases hz' : dz w = dz y
    · have : dx w = dx y := le_antisymm (hdown hyC w hw (le_of_eq hz')) (minx w hw)
      simp [hz', this]
    · simp [hz']
  rw [hsub, ← fx, List.filter_cons_of_pos (by simp)] at fz
  have := List.head_eq_of_cons_eq fz
  rw [this]

theorem knn_of_neighbours {m : Knn ℝ} {x z : Inst ℝ} {ns : IList ℝ} (hx : m.nearestNeighbors x = .ok ns) (hz : m.nearestNeighbors z = .ok ns)
    (hne : ns ≠ []) : m.predict z = m.predict x ∧ (m.predictProbability z : Res (OMap ℝ)) = m.predictProbability x := by
  unfold Knn.predict Knn.predictProbability
  rw [hx, hz]
  have : (ns.length == 0) = false := by simpa using hne
  simp only [res_bind_ok, this, Bool.and_false, Bool.false_eq_true, if_false, and_self]

/-! ## Euclidean distance -/

/-- moving by the part `t` of the way mixes the differences of squared distances in proportion -/
theorem sq_towards {t : ℝ} : ∀ {xs ys zs ws : List (Attr ℝ)},
    List.Forall₂ (fun (p : Attr ℝ × Attr ℝ) c => (∃ u v : ℝ, p = (.continuous u, .continuous v) ∧
      c = .continuous ((1 - t) * u + t * v)) ∨ (p.1 = p.2 ∧ c = p.1)) (xs.zip ys) zs →
    xs.length = ys.length → List.Forall₂ SameKind xs ws →
    (List.zipWith sqDiff ws zs).sum - (List.zipWith sqDiff ys zs).sum =
      (1 - t) * ((List.zipWith sqDiff ws xs).sum - (List.zipWith sqDiff ys xs).sum) + t * (List.zipWith sqDiff ws ys).sum := by
  intro xs
  induction xs with
  | nil => intro ys zs ws h hl hk; cases hk; cases ys <;> simp at hl ⊢
  | cons a xs ih =>
    intro ys zs ws h hl hk
    cases ys with
    | nil => simp at hl
    | cons b ys =>
      cases hk with
      | cons hk0 hk =>
        simp only [List.zip_cons_cons] at h
        cases h with
        | cons h0 h =>
          have := ih h (by simpa using hl) hk
          simp only [List.zipWith_cons_cons, List.sum_cons]
          rename_i w ws z zs
          have e : sqDiff w z - sqDiff b z = (1 - t) * (sqDiff w a - sqDiff b a) + t * sqDiff w b := by
            rcases h0 with ⟨u, v, hp, hc⟩ | ⟨h1, h2⟩
            · simp only [Prod.mk.injEq] at hp
              obtain ⟨rfl, rfl⟩ := hp
              subst hc
              cases w <;> simp only [SameKind] at hk0
              simp only [sqDiff]; ring
            · simp only at h1 h2
              subst h1; subst h2
              have : sqDiff z z = 0 := by cases z <;> simp [sqDiff]
              rw [this]; ring
          linear_combination this + e

/-- **C217.** One nearest neighbour with the Euclidean distance: if the neighbour that decides about an instance is `y`, then
after any part of the straight way from the instance to `y` it is still `y`, and the answers are the same. -/
theorem C217_euclidean {data : IList ℝ} {old : Knn ℝ} {x y z : Inst ℝ} {t : ℝ} (h0 : 0 ≤ t) (h1 : t ≤ 1)
    (hkind : ∀ w ∈ data, List.Forall₂ SameKind x.attrs w.attrs)
    (h : (old.train data 1 euclidean).nearestNeighbors x = .ok [y]) (hz : Towards t x y z) :
    (old.train data 1 euclidean).nearestNeighbors z = .ok [y] ∧
      (old.train data 1 euclidean).predict z = (old.train data 1 euclidean).predict x ∧
      ((old.train data 1 euclidean).predictProbability z : Res (OMap ℝ)) = (old.train data 1 euclidean).predictProbability x := by
  have hsub : ∀ w ∈ candidates data x, w ∈ data := by
    intro w hw
    unfold candidates at hw
    split at hw
    · exact hw
    · exact (List.mem_filter.1 hw).1
  have hzl : z.attrs.length = x.attrs.length := by
    rw [← hz.attrs.length_eq, List.length_zip, hz.length, Nat.min_self]
  have hmain : (old.train data 1 euclidean).nearestNeighbors z = .ok [y] := by
    refine nearest_stays (dx := fun w => (List.zipWith sqDiff w.attrs x.attrs).sum)
      (dz := fun w => (List.zipWith sqDiff w.attrs z.attrs).sum) hz.possible ?_ ?_ ?_ ?_ h
    · intro w hw
      exact C51_sum w x (by rw [(hkind w (hsub w hw)).length_eq])
    · intro w hw
      exact C51_sum w z (by rw [hzl, (hkind w (hsub w hw)).length_eq])
    all_goals
      intro hyC w hw hle
      have key := sq_towards hz.attrs hz.length (hkind w (hsub w hw))
      have hnn : 0 ≤ (List.zipWith sqDiff w.attrs y.attrs).sum := (sum_zero_iff _ _).1
    · rcases lt_or_eq_of_le h1 with hlt | rfl
      · have h3 := mul_nonneg h0 hnn
        by_contra hcon
        push Not at hcon
        nlinarith [mul_pos (sub_pos.2 hlt) (sub_pos.2 hcon)]
      · -- the instance has arrived at `y`
        have hk := hkind w (hsub w hw)
        have hky := hkind y (hsub y hyC)
        have h0' : (List.zipWith sqDiff w.attrs y.attrs).sum = 0 := by linarith
        have hsame : ∀ {xs ys ws : List (Attr ℝ)}, List.Forall₂ SameKind xs ys → List.Forall₂ SameKind xs ws →
            (List.zipWith sqDiff ws ys).sum = 0 →
            (List.zipWith sqDiff ws xs).sum = (List.zipWith sqDiff ys xs).sum := by
          intro xs
          induction xs with
          | nil => intro ys ws h1 h2 _; cases h1; cases h2; rfl
          | cons a xs ih =>
            intro ys ws h1 h2 hs
            cases h1 with
            | cons k1 h1 =>
              cases h2 with
              | cons k2 h2 =>
                rename_i b ys c ws
                simp only [List.zipWith_cons_cons, List.sum_cons] at hs ⊢
                have n1 := sqDiff_nonneg c b
                have n2 : 0 ≤ (List.zipWith sqDiff ws ys).sum := (sum_zero_iff _ _).1
                rw [ih h1 h2 (by linarith)]
                have e0 : sqDiff c b = 0 := by linarith
                congr 1
                cases a <;> cases b <;> cases c <;> simp_all [SameKind, sqDiff, sub_eq_zero]
        exact le_of_eq (hsame hky hk h0')
    · have h3 := mul_nonneg h0 hnn
      have h4 := mul_nonneg (sub_nonneg.2 h1) (sub_nonneg.2 hle)
      linarith
  exact ⟨hmain, knn_of_neighbours h hmain (by simp)⟩

/-! ## Mahalanobis distance -/

theorem mah_towards (n : Nat) (S : Mat ℝ) (t : ℝ) {xs ys zs ws : List ℝ}
    (hz : ∀ i < n, zs.getD i 0 = (1 - t) * xs.getD i 0 + t * ys.getD i 0) :
    mahSq n S ws zs - mahSq n S ys zs = (1 - t) * (mahSq n S ws xs - mahSq n S ys xs) + t * mahSq n S ws ys := by
  unfold mahSq bilinear
  simp only [mul_sub, Finset.mul_sum, ← Finset.sum_sub_distrib, ← Finset.sum_add_distrib]
  refine Finset.sum_congr rfl (fun i hi => Finset.sum_congr rfl (fun j hj => ?_))
  rw [hz i (Finset.mem_range.1 hi), hz j (Finset.mem_range.1 hj)]
  ring

/-- **C217.** The same with the Mahalanobis distance of a positive definite matrix, on numeric data. -/
theorem C217_mahalanobis {data : IList ℝ} {old : Knn ℝ} {n : Nat} {S : Mat ℝ} (hr : S.rows = n) (hc : S.cols = n)
    (hpos : ∀ z : Nat → ℝ, (∃ i < n, z i ≠ 0) → 0 < ∑ i ∈ Finset.range n, ∑ j ∈ Finset.range n, z i * S.e i j * z j)
    {x y z : Inst ℝ} {t : ℝ} (h0 : 0 ≤ t) (h1 : t ≤ 1) {v : Inst ℝ → List ℝ}
    (hv : ∀ w ∈ x :: data, w.attrs = (v w).map Attr.continuous ∧ (v w).length = n)
    (h : (old.train data 1 (mahalanobis S)).nearestNeighbors x = .ok [y]) (hz : Towards t x y z) :
    (old.train data 1 (mahalanobis S)).nearestNeighbors z = .ok [y] ∧
      (old.train data 1 (mahalanobis S)).predict z = (old.train data 1 (mahalanobis S)).predict x ∧
      ((old.train data 1 (mahalanobis S)).predictProbability z : Res (OMap ℝ)) =
        (old.train data 1 (mahalanobis S)).predictProbability x := by
  have hsub : ∀ w ∈ candidates data x, w ∈ data := by
    intro w hw
    unfold candidates at hw
    split at hw
    · exact hw
    · exact (List.mem_filter.1 hw).1
  have hyd : y ∈ data := by
    have hex : ∀ w ∈ candidates data x, ∃ d, mahalanobis S w x = .ok d := by
      intro w hw
      obtain ⟨d, e, _⟩ := C137_mahalanobis (S := S) (x := w) (y := x) (toVector_ok _ _ (hv w (by simp [hsub w hw])).1)
        (toVector_ok _ _ (hv x (by simp)).1) (hv w (by simp [hsub w hw])).2 (hv x (by simp)).2 hr hc
      exact ⟨d, e⟩
    choose! d hd using hex
    obtain ⟨ns, rest, e, hsort, _, _⟩ := C49_nearest (old.train data 1 (mahalanobis S)) x d hd (fun _ _ => by simp [Dbl.Ord])
    rw [h] at e
    cases e
    exact hsub y (hsort.perm.mem_iff.1 (by simp))
  have hvx := hv x (by simp)
  have hvy := hv y (by simp [hyd])
  -- the numbers of `z`
  have hzv : z.attrs = (List.zipWith (fun a b => (1 - t) * a + t * b) (v x) (v y)).map Attr.continuous := by
    have hall := hz.attrs
    rw [hvx.1, hvy.1] at hall
    have : ∀ {us ws : List ℝ} {zs : List (Attr ℝ)},
        List.Forall₂ (fun (p : Attr ℝ × Attr ℝ) c => (∃ u v : ℝ, p = (.continuous u, .continuous v) ∧
          c = .continuous ((1 - t) * u + t * v)) ∨ (p.1 = p.2 ∧ c = p.1))
          ((us.map Attr.continuous).zip (ws.map Attr.continuous)) zs →
        zs = (List.zipWith (fun a b => (1 - t) * a + t * b) us ws).map Attr.continuous := by
      intro us
      induction us with
      | nil => intro ws zs h; cases h; rfl
      | cons u us ih =>
        intro ws zs h
        cases ws with
        | nil => cases h; rfl
        | cons w ws =>
          simp only [List.map_cons, List.zip_cons_cons] at h
          cases h with
          | cons h0 h =>
            simp only [List.zipWith_cons_cons, List.map_cons]
            rw [ih h]
            congr 1
            rcases h0 with ⟨a, b, hab, hc⟩ | ⟨h1, h2⟩
            · simp only [Prod.mk.injEq, Attr.continuous.injEq] at hab
              obtain ⟨rfl, rfl⟩ := hab
              exact hc
            · simp only [Attr.continuous.injEq] at h1
              subst h1
              rw [h2]
              exact congrArg Attr.continuous (by ring)
    exact this hall
  set vz := List.zipWith (fun a b => (1 - t) * a + t * b) (v x) (v y) with hvz
  have hlz : vz.length = n := by rw [hvz, List.length_zipWith, hvx.2, hvy.2, Nat.min_self]
  have hget : ∀ i < n, vz.getD i 0 = (1 - t) * (v x).getD i 0 + t * (v y).getD i 0 := by
    intro i hi
    have h1 : i < (v x).length := by rw [hvx.2]; exact hi
    have h2 : i < (v y).length := by rw [hvy.2]; exact hi
    have h3 : i < vz.length := by rw [hlz]; exact hi
    simp [hvz, List.getD_eq_getElem?_getD, h1, h2]
  have hnn : ∀ u w : List ℝ, 0 ≤ mahSq n S u w := by
    intro u w
    by_cases hw : ∃ i < n, (u.getD i 0 - w.getD i 0) ≠ 0
    · exact le_of_lt (hpos _ hw)
    · push Not at hw
      unfold mahSq bilinear
      refine le_of_eq (Eq.symm (Finset.sum_eq_zero (fun i hi => Finset.sum_eq_zero (fun j hj => ?_))))
      simp only [hw i (Finset.mem_range.1 hi), zero_mul]
  have hmain : (old.train data 1 (mahalanobis S)).nearestNeighbors z = .ok [y] := by
    refine nearest_stays (dx := fun w => mahSq n S (v w) (v x)) (dz := fun w => mahSq n S (v w) vz) hz.possible ?_ ?_ ?_ ?_ h
    · intro w hw
      have hw' := hv w (by simp [hsub w hw])
      exact mahalanobis_eq (toVector_ok _ _ hw'.1) (toVector_ok _ _ hvx.1) hw'.2 hvx.2 hr hc
    · intro w hw
      have hw' := hv w (by simp [hsub w hw])
      exact mahalanobis_eq (toVector_ok _ _ hw'.1) (toVector_ok _ _ hzv) hw'.2 hlz hr hc
    all_goals
      intro hyC w hw hle
      have key := mah_towards n S t (xs := v x) (ys := v y) (zs := vz) (ws := v w) hget
      have hw0 := hnn (v w) (v y)
    · rcases lt_or_eq_of_le h1 with hlt | rfl
      · have h3 := mul_nonneg h0 hw0
        by_contra hcon
        push Not at hcon
        nlinarith [mul_pos (sub_pos.2 hlt) (sub_pos.2 hcon)]
      · have h0' : ¬ ∃ i < n, ((v w).getD i 0 - (v y).getD i 0) ≠ 0 := by
          intro hex
          have : 0 < mahSq n S (v w) (v y) := hpos _ hex
          linarith
        push Not at h0'
        simp only [mahSq, bilinear]
        refine le_of_eq (Finset.sum_congr rfl (fun i hi => Finset.sum_congr rfl (fun j hj => ?_)))
        simp only [sub_eq_zero.1 (h0' i (Finset.mem_range.1 hi)), sub_eq_zero.1 (h0' j (Finset.mem_range.1 hj))]
    · have h3 := mul_nonneg h0 hw0
      have h4 := mul_nonneg (sub_nonneg.2 h1) (sub_nonneg.2 hle)
      linarith
  exact ⟨hmain, knn_of_neighbours h hmain (by simp)⟩

/-! ## more neighbours -/

/-- two kinds on a line -/
def dots : IList ℝ :=
  [⟨"a", [.continuous 4], none⟩, ⟨"a", [.continuous (-6)], none⟩, ⟨"b", [.continuous (-7)], none⟩,
   ⟨"b", [.continuous 8], none⟩, ⟨"b", [.continuous 9], none⟩]

theorem dots_nearest : (Knn.train ⟨[], 0, euclidean⟩ dots 1 euclidean).nearestNeighbors ⟨"", [.continuous 0], none⟩ =
    .ok [⟨"a", [.continuous 4], none⟩] := by
  simp [Knn.nearestNeighbors, Knn.train, dots, euclidean, Knn.eligible, Inst.isComposite, stableSort, euclidStep,
    Inst.getAttribute, atR, insertBy]
  norm_num [insertBy]

/-- half the way: 2 has the neighbour of 0 -/
example : (Knn.train ⟨[], 0, euclidean⟩ dots 1 euclidean).nearestNeighbors ⟨"", [.continuous 2], none⟩ =
    .ok [⟨"a", [.continuous 4], none⟩] := by
  refine (C217_euclidean (t := 1 / 2) (z := ⟨"", [.continuous 2], none⟩) (by norm_num) (by norm_num) ?_ dots_nearest ⟨?_, rfl, rfl⟩).1
  · simp [dots, SameKind]
  · simp only [List.zip_cons_cons, List.zip_nil_right]
    exact .cons (.inl ⟨0, 4, rfl, by norm_num⟩) .nil

/-- the hypotheses about a matrix are those of the matrix (1) -/
example : ∀ z : Nat → ℝ, (∃ i < 1, z i ≠ 0) → 0 < ∑ i ∈ Finset.range 1, ∑ j ∈ Finset.range 1,
    z i * (⟨1, 1, fun _ _ => 1⟩ : Mat ℝ).e i j * z j := by
  rintro z ⟨i, hi, hz⟩
  have : i = 0 := by omega
  subst this
  simp only [Finset.sum_range_one, mul_one]
  exact mul_self_pos.2 hz

/-- **C217 (refuted for more neighbours)** With three neighbours the answer can change on the way to the nearest one. -/
theorem C217_refuted : ∃ (data : IList ℝ) (x y z : Inst ℝ),
    (Knn.train ⟨[], 0, euclidean⟩ data 1 euclidean).nearestNeighbors x = .ok [y] ∧ Towards 1 x y z ∧
    (Knn.train ⟨[], 0, euclidean⟩ data 3 euclidean).predict x = .ok "a" ∧
    (Knn.train ⟨[], 0, euclidean⟩ data 3 euclidean).predict z = .ok "b" := by
  refine ⟨dots, ⟨"", [.continuous 0], none⟩, ⟨"a", [.continuous 4], none⟩, ⟨"", [.continuous 4], none⟩, dots_nearest, ?_, ?_, ?_⟩
  · refine ⟨?_, rfl, rfl⟩
    simp
  · simp [Knn.predict, Knn.nearestNeighbors, Knn.train, dots, euclidean, Knn.eligible, Inst.isComposite, stableSort, euclidStep,
      Inst.getAttribute, atR]
    norm_num [insertBy]
    decide +kernel
  · simp [Knn.predict, Knn.nearestNeighbors, Knn.train, dots, euclidean, Knn.eligible, Inst.isComposite, stableSort, euclidStep,
      Inst.getAttribute, atR]
    norm_num [insertBy]
    decide +kernel

end Verif
