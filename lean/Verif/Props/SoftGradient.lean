import Verif.Props.SoftTrain
import Verif.Props.Gradient

/-! # C122: gradient descent in soft decision trees (exact arithmetic) -/

set_option linter.unusedSectionVars false
set_option linter.unusedVariables false

namespace Verif
open Dbl

/-! ## outputs and paths -/

/-- weights on the way to a node, lowest first -/
noncomputable def pathGates (u : List ℝ) : SoftNode ℝ → List Bool → List ℝ
  | _, [] => []
  | .leaf _, _ :: _ => []
  | .split e l r, false :: p => pathGates u l p ++ [gate e.w u]
  | .split e l r, true :: p => pathGates u r p ++ [1 - gate e.w u]

theorem softOut_split {K d : Nat} (u : List ℝ) {e : SoftData ℝ} {l r : SoftNode ℝ} (h : (SoftNode.split e l r).Sized K d) {k : Nat}
    (hk : k < K) : (softOut u (.split e l r)).getD k 0 =
      gate e.w u * (softOut u l).getD k 0 + (1 - gate e.w u) * (softOut u r).getD k 0 := by
  have hlen : k < (softOut u (.split e l r)).length := by rw [softOut_length h]; exact hk
  have hget : (softOut u (.split e l r)).getD k 0 = (softOut u (.split e l r))[k] := by simp [hlen]
  rw [hget]
  simp only [softOut, List.getElem_map, List.getElem_range, gateF_real, add_real, mul_real, sub_real, one_real, zero_real]

theorem softOut_put {K d : Nat} (u : List ℝ) {k : Nat} (hk : k < K) {n m : SoftNode ℝ} (hn : n.Sized K d) (hm : m.Sized K d) :
    ∀ (t : SoftNode ℝ) (p : List Bool) (ws : List ℝ), t.Sized K d → t.at p = .ok (n, ws) →
    (softOut u (t.put p m)).getD k 0 = (softOut u t).getD k 0 +
      (pathGates u t p).prod * ((softOut u m).getD k 0 - (softOut u n).getD k 0)
  | .leaf e, [], ws, ht, h => by cases h; simp [SoftNode.put, pathGates]
  | .split e l r, [], ws, ht, h => by cases h; simp [SoftNode.put, pathGates]
  | .leaf e, _ :: _, ws, ht, h => by cases h
  | .split e l r, false :: p, ws, ht, h => by
    simp only [SoftNode.at, bind_ok_iff] at h
    obtain ⟨⟨n', ws'⟩, h1, h2⟩ := h
    cases h2
    have ih := softOut_put u hk hn hm l p ws' ht.2.1 h1
    simp only [SoftNode.put, pathGates, List.prod_append, List.prod_singleton]
    rw [softOut_split u (K := K) (d := d) ⟨ht.1, put_sized l p m ht.2.1 hm, ht.2.2⟩ hk, ih, softOut_split u ht hk]
    ring
  | .split e l r, true :: p, ws, ht, h => by
    simp only [SoftNode.at, bind_ok_iff] at h
    obtain ⟨⟨n', ws'⟩, h1, h2⟩ := h
    cases h2
    have ih := softOut_put u hk hn hm r p ws' ht.2.2 h1
    simp only [SoftNode.put, pathGates, List.prod_append, List.prod_singleton]
    rw [softOut_split u (K := K) (d := d) ⟨ht.1, ht.2.1, put_sized r p m ht.2.2 hm⟩ hk, ih, softOut_split u ht hk]
    ring

/-- two nodes with the same children and the same weights -/
def SameSplit (e : SoftData ℝ) (l r n : SoftNode ℝ) : Prop := ∃ e', n = .split e' l r ∧ e'.w = e.w ∧ e'.w0s = e.w0s

theorem at_setWeight (v : ℝ) : ∀ (t : SoftNode ℝ) (b : Bool) (p : List Bool), (t.setWeight v).at (b :: p) = t.at (b :: p)
  | .leaf _, _, _ => rfl
  | .split _ _ _, false, _ => rfl
  | .split _ _ _, true, _ => rfl

theorem data_setWeight (v : ℝ) (t : SoftNode ℝ) : (t.setWeight v).data.weight = v := by cases t <;> rfl

theorem setWeight_split (v : ℝ) (e : SoftData ℝ) (l r : SoftNode ℝ) :
    (SoftNode.split e l r).setWeight v = .split { e with weight := v } l r := rfl

/-- after an evaluation, a split with two leaves -/
theorem mark_at (u : List ℝ) {e l r : SoftData ℝ} : ∀ (t : SoftNode ℝ) (p : List Bool) (ws : List ℝ),
    t.at p = .ok (.split e (.leaf l) (.leaf r), ws) →
    ∃ e', (mark u t).at p = .ok (.split e' (.leaf { l with weight := gate e.w u }) (.leaf { r with weight := 1 - gate e.w u }),
      pathGates u t p) ∧ e'.w = e.w
  | .leaf _, [], ws, h => by cases h
  | .split _ _ _, [], ws, h => by
    cases h
    refine ⟨{ e with outputs := softOut u (.split e (.leaf l) (.leaf r)) }, ?_, rfl⟩
    simp only [mark, SoftNode.at, SoftNode.setWeight, pathGates, gateF_real, sub_real, one_real]
    rfl
  | .leaf _, _ :: _, ws, h => by cases h
  | .split e0 l0 r0, false :: p, ws, h => by
    simp only [SoftNode.at, bind_ok_iff] at h
    obtain ⟨⟨n', ws'⟩, h1, h2⟩ := h
    cases h2
    obtain ⟨e', h3, h4⟩ := mark_at u l0 p ws' h1
    cases p with
    | nil =>
      simp only [SoftNode.at, res_pure, Except.ok.injEq, Prod.mk.injEq] at h3
      simp only [mark, SoftNode.at, h3.1, setWeight_split, gateF_real, pathGates]
      exact ⟨_, rfl, h4⟩
    | cons b p =>
      refine ⟨e', ?_, h4⟩
      simp only [mark, SoftNode.at, at_setWeight, h3, res_bind_ok, data_setWeight, gateF_real]
      rfl
  | .split e0 l0 r0, true :: p, ws, h => by
    simp only [SoftNode.at, bind_ok_iff] at h
    obtain ⟨⟨n', ws'⟩, h1, h2⟩ := h
    cases h2
    obtain ⟨e', h3, h4⟩ := mark_at u r0 p ws' h1
    cases p with
    | nil =>
      simp only [SoftNode.at, res_pure, Except.ok.injEq, Prod.mk.injEq] at h3
      simp only [mark, SoftNode.at, h3.1, setWeight_split, gateF_real, pathGates, sub_real, one_real]
      exact ⟨_, rfl, h4⟩
    | cons b p =>
      refine ⟨e', ?_, h4⟩
      simp only [mark, SoftNode.at, at_setWeight, h3, res_bind_ok, data_setWeight, gateF_real, sub_real, one_real]
      rfl

theorem at_put : ∀ (t : SoftNode ℝ) (p : List Bool) (n m : SoftNode ℝ) (ws : List ℝ), t.at p = .ok (n, ws) →
    ∃ ws', (t.put p m).at p = .ok (m, ws')
  | .leaf _, [], n, m, ws, h => ⟨[], by cases m <;> rfl⟩
  | .split _ _ _, [], n, m, ws, h => ⟨[], by cases m <;> rfl⟩
  | .leaf _, _ :: _, n, m, ws, h => by cases h
  | .split e l r, false :: p, n, m, ws, h => by
    simp only [SoftNode.at, bind_ok_iff] at h
    obtain ⟨⟨n', ws'⟩, h1, h2⟩ := h
    obtain ⟨w, hw⟩ := at_put l p n' m ws' h1
    exact ⟨_, by simp only [SoftNode.put, SoftNode.at, hw, res_bind_ok]; rfl⟩
  | .split e l r, true :: p, n, m, ws, h => by
    simp only [SoftNode.at, bind_ok_iff] at h
    obtain ⟨⟨n', ws'⟩, h1, h2⟩ := h
    obtain ⟨w, hw⟩ := at_put r p n' m ws' h1
    exact ⟨_, by simp only [SoftNode.put, SoftNode.at, hw, res_bind_ok]; rfl⟩

theorem foldl_mul_real (ws : List ℝ) (eta : ℝ) : ws.foldl (fun a b => a *. b) eta = eta * ws.prod := by
  induction ws generalizing eta with
  | nil => simp
  | cons a ws ih => rw [List.foldl_cons, ih, List.prod_cons, mul_real, mul_assoc]

theorem treeScores_eq {K d : Nat} {x : Inst ℝ} {u : List ℝ} (hx : NumbersAre x u d) {t : SoftNode ℝ} (ht : t.Sized K d) (k : Nat) :
    treeScores x t k = (softOut u t).getD k 0 := by
  unfold treeScores
  rw [calcOutput_ok hx ht]

theorem list_map_sum_range (l : List ℝ) (f : ℝ → ℝ) : (l.map f).sum = ∑ k ∈ Finset.range l.length, f (l.getD k 0) := by
  induction l with
  | nil => simp
  | cons a l ih =>
    rw [List.map_cons, List.sum_cons, List.length_cons, Finset.sum_range_succ', ih, add_comm]
    simp

theorem delta_outError {K : Nat} {o : List ℝ} (ho : o.length = K) (r k : Nat) (hk : k < K) (s : Nat → ℝ)
    (hs : ∀ k, s k = o.getD k 0) : deltaF r (normalizeOutput o) k = outError K r s k := by
  unfold deltaF outError
  rw [normalizeOutput_real]
  have hk' : k < o.length := by omega
  have h1 : (o.map (fun a => Real.exp a / (o.map Real.exp).sum)).getD k Dbl.zero = Real.exp (o.getD k 0) / (o.map Real.exp).sum := by
    simp [hk']
  rw [h1, list_map_sum_range, ho]
  simp only [hs, sub_real, one_real, zero_real, eq_comm]

/-! ## derivatives -/

theorem gate_eq (w u : List ℝ) : gate w u = actReal .sigmoid ((List.zipWith (fun a b => a * b) (1 :: u) w).sum) := rfl

theorem zipWith_set (a w : List ℝ) (j : Nat) (v : ℝ) (h : j < w.length) (h' : j < a.length) :
    (List.zipWith (fun a b => a * b) a (w.set j v)).sum =
      (List.zipWith (fun a b => a * b) a w).sum + a.getD j 0 * (v - w.getD j 0) := by
  induction a generalizing w j with
  | nil => simp at h'
  | cons b a ih =>
    cases w with
    | nil => simp at h
    | cons c w =>
      cases j with
      | zero => simp; ring
      | succ j =>
        simp only [List.set_cons_succ, List.zipWith_cons_cons, List.sum_cons, List.getD_cons_succ]
        rw [ih w j (by simpa using h) (by simpa using h')]
        ring

theorem getD_set (l : List ℝ) (k j : Nat) (v : ℝ) (hk : k < l.length) : (l.set k v).getD j 0 = if j = k then v else l.getD j 0 := by
  by_cases h : j = k
  · subst h
    simp [hk]
  · rw [if_neg h]
    simp only [List.getD_eq_getElem?_getD]
    rw [List.getElem?_set_ne (fun e => h e.symm)]

section
variable {labels : List String} {d : Nat} {x : Inst ℝ} {u : List ℝ} (hx : NumbersAre x u d) {t : SoftNode ℝ}
  (ht : t.Sized labels.length d) {p : List Bool} {e l r : SoftData ℝ} {ws : List ℝ}
  (hat : t.at p = .ok (.split e (.leaf l) (.leaf r), ws))
include hx ht hat

theorem node_sized : (SoftNode.split e (.leaf l) (.leaf r)).Sized labels.length d := at_sized t p _ ws hat ht

theorem scores_put {m : SoftNode ℝ} (hm : m.Sized labels.length d) {k : Nat} (hk : k < labels.length) :
    treeScores x (t.put p m) k = treeScores x t k + (pathGates u t p).prod *
      ((softOut u m).getD k 0 - (softOut u (.split e (.leaf l) (.leaf r))).getD k 0) := by
  rw [treeScores_eq hx (put_sized t p m ht hm), treeScores_eq hx ht]
  exact softOut_put u hk (node_sized hx ht hat) hm t p ws ht hat

/-- derivative of the log-probability of class `c` when entry `k` of the first leaf changes -/
theorem left_deriv (c k : Nat) (hc : c < labels.length) (hk : k < labels.length) :
    HasDerivAt (fun v => logProb labels.length (treeScores x (t.put p (.split e (.leaf { l with w0s := l.w0s.set k v }) (.leaf r)))) c)
      (outError labels.length c (treeScores x t) k * ((pathGates u t p).prod * gate e.w u)) (l.w0s.getD k 0) := by
  have hs := node_sized hx ht hat
  have hkl : k < l.w0s.length := by rw [hs.2.1.1]; exact hk
  have hsz : ∀ v, (SoftNode.split e (.leaf { l with w0s := l.w0s.set k v }) (.leaf r)).Sized labels.length d := fun v =>
    ⟨hs.1, ⟨by simpa using hs.2.1.1, hs.2.1.2⟩, hs.2.2⟩
  have hscore : ∀ v j, j < labels.length →
      treeScores x (t.put p (.split e (.leaf { l with w0s := l.w0s.set k v }) (.leaf r))) j =
        treeScores x t j + (pathGates u t p).prod * gate e.w u * (if j = k then v - l.w0s.getD k 0 else 0) := by
    intro v j hj
    rw [scores_put hx ht hat (hsz v) hj, softOut_split u (hsz v) hj, softOut_split u hs hj]
    simp only [softOut]
    rw [getD_set _ _ _ _ hkl]
    split
    · rename_i h; subst h; ring
    · ring
  have hself : ∀ j, j < labels.length →
      treeScores x (t.put p (.split e (.leaf { l with w0s := l.w0s.set k (l.w0s.getD k 0) }) (.leaf r))) j = treeScores x t j := by
    intro j hj
    rw [hscore _ j hj]
    simp
  have := hasDerivAt_logProb labels.length c hc
    (fun v => treeScores x (t.put p (.split e (.leaf { l with w0s := l.w0s.set k v }) (.leaf r))))
    (fun j => if j = k then (pathGates u t p).prod * gate e.w u else 0) (l.w0s.getD k 0) (by
      intro j hj
      simp only [hscore _ j hj]
      by_cases h : j = k
      · simp only [if_pos h]
        have h1 := (((hasDerivAt_id (l.w0s.getD k 0)).sub_const (l.w0s.getD k 0)).const_mul
          ((pathGates u t p).prod * gate e.w u)).const_add (treeScores x t j)
        simpa using h1
      · simp only [if_neg h]
        exact hasDerivAt_const _ _)
  refine this.congr_deriv ?_
  simp only [mul_ite, mul_zero]
  rw [Finset.sum_ite_eq' (Finset.range labels.length) k, if_pos (Finset.mem_range.2 hk)]
  congr 1
  unfold outError
  rw [hself k hk]
  congr 2
  exact Finset.sum_congr rfl (fun j hj => by rw [hself j (Finset.mem_range.1 hj)])

/-- the same for the second leaf -/
theorem right_deriv (c k : Nat) (hc : c < labels.length) (hk : k < labels.length) :
    HasDerivAt (fun v => logProb labels.length (treeScores x (t.put p (.split e (.leaf l) (.leaf { r with w0s := r.w0s.set k v })))) c)
      (outError labels.length c (treeScores x t) k * ((pathGates u t p).prod * (1 - gate e.w u))) (r.w0s.getD k 0) := by
  have hs := node_sized hx ht hat
  have hkl : k < r.w0s.length := by rw [hs.2.2.1]; exact hk
  have hsz : ∀ v, (SoftNode.split e (.leaf l) (.leaf { r with w0s := r.w0s.set k v })).Sized labels.length d := fun v =>
    ⟨hs.1, hs.2.1, by simpa using hs.2.2.1, hs.2.2.2⟩
  have hscore : ∀ v j, j < labels.length →
      treeScores x (t.put p (.split e (.leaf l) (.leaf { r with w0s := r.w0s.set k v }))) j =
        treeScores x t j + (pathGates u t p).prod * (1 - gate e.w u) * (if j = k then v - r.w0s.getD k 0 else 0) := by
    intro v j hj
    rw [scores_put hx ht hat (hsz v) hj, softOut_split u (hsz v) hj, softOut_split u hs hj]
    simp only [softOut]
    rw [getD_set _ _ _ _ hkl]
    split
    · rename_i h; subst h; ring
    · ring
  have hself : ∀ j, j < labels.length →
      treeScores x (t.put p (.split e (.leaf l) (.leaf { r with w0s := r.w0s.set k (r.w0s.getD k 0) }))) j = treeScores x t j := by
    intro j hj
    rw [hscore _ j hj]
    simp
  have := hasDerivAt_logProb labels.length c hc
    (fun v => treeScores x (t.put p (.split e (.leaf l) (.leaf { r with w0s := r.w0s.set k v }))))
    (fun j => if j = k then (pathGates u t p).prod * (1 - gate e.w u) else 0) (r.w0s.getD k 0) (by
      intro j hj
      simp only [hscore _ j hj]
      by_cases h : j = k
      · simp only [if_pos h]
        have h1 := (((hasDerivAt_id (r.w0s.getD k 0)).sub_const (r.w0s.getD k 0)).const_mul
          ((pathGates u t p).prod * (1 - gate e.w u))).const_add (treeScores x t j)
        simpa using h1
      · simp only [if_neg h]
        exact hasDerivAt_const _ _)
  refine this.congr_deriv ?_
  simp only [mul_ite, mul_zero]
  rw [Finset.sum_ite_eq' (Finset.range labels.length) k, if_pos (Finset.mem_range.2 hk)]
  congr 1
  unfold outError
  rw [hself k hk]
  congr 2
  exact Finset.sum_congr rfl (fun j hj => by rw [hself j (Finset.mem_range.1 hj)])

/-- derivative of the log-probability of class `c` when weight `j` of the split changes -/
theorem split_deriv (c j : Nat) (hc : c < labels.length) (hj : j < d + 1) :
    HasDerivAt (fun v => logProb labels.length (treeScores x (t.put p (.split { e with w := e.w.set j v } (.leaf l) (.leaf r)))) c)
      (∑ k ∈ Finset.range labels.length, outError labels.length c (treeScores x t) k *
        ((pathGates u t p).prod * ((1 - gate e.w u) * gate e.w u * (1 :: u).getD j 0 * (l.w0s.getD k 0 - r.w0s.getD k 0))))
      (e.w.getD j 0) := by
  have hs := node_sized hx ht hat
  have hjw : j < e.w.length := by rw [hs.1.2.2]; exact hj
  have hju : j < (1 :: u).length := by rw [List.length_cons, hx.1]; exact hj
  have hsz : ∀ v, (SoftNode.split { e with w := e.w.set j v } (.leaf l) (.leaf r)).Sized labels.length d := fun v =>
    ⟨⟨hs.1.1, hs.1.2.1, by simpa using hs.1.2.2⟩, hs.2⟩
  have hscore : ∀ v k, k < labels.length →
      treeScores x (t.put p (.split { e with w := e.w.set j v } (.leaf l) (.leaf r))) k =
        treeScores x t k + (pathGates u t p).prod * ((gate (e.w.set j v) u - gate e.w u) * (l.w0s.getD k 0 - r.w0s.getD k 0)) := by
    intro v k hk
    rw [scores_put hx ht hat (hsz v) hk, softOut_split u (hsz v) hk, softOut_split u hs hk]
    simp only [softOut]
    ring
  have hgate : HasDerivAt (fun v => gate (e.w.set j v) u) ((1 - gate e.w u) * gate e.w u * (1 :: u).getD j 0) (e.w.getD j 0) := by
    have hz : HasDerivAt (fun v => (List.zipWith (fun a b => a * b) (1 :: u) (e.w.set j v)).sum) ((1 :: u).getD j 0) (e.w.getD j 0) := by
      simp only [zipWith_set (1 :: u) e.w j _ hjw hju]
      have h1 := (((hasDerivAt_id (e.w.getD j 0)).sub_const (e.w.getD j 0)).const_mul ((1 :: u).getD j 0)).const_add
        (List.zipWith (fun a b => a * b) (1 :: u) e.w).sum
      simpa using h1
    have hval : (List.zipWith (fun a b => a * b) (1 :: u) (e.w.set j (e.w.getD j 0))).sum =
        (List.zipWith (fun a b => a * b) (1 :: u) e.w).sum := by
      rw [zipWith_set (1 :: u) e.w j _ hjw hju]
      ring
    have h2 := hasDerivAt_sigmoid (List.zipWith (fun a b => a * b) (1 :: u) (e.w.set j (e.w.getD j 0))).sum
    have h3 := h2.comp (e.w.getD j 0) hz
    refine h3.congr_deriv ?_
    rw [hval]
    rfl
  have hgself : gate (e.w.set j (e.w.getD j 0)) u = gate e.w u := by
    rw [gate_eq, gate_eq, zipWith_set (1 :: u) e.w j _ hjw hju]
    congr 1
    ring
  have hself : ∀ k, k < labels.length →
      treeScores x (t.put p (.split { e with w := e.w.set j (e.w.getD j 0) } (.leaf l) (.leaf r))) k = treeScores x t k := by
    intro k hk
    rw [hscore _ k hk, hgself]
    ring
  have := hasDerivAt_logProb labels.length c hc
    (fun v => treeScores x (t.put p (.split { e with w := e.w.set j v } (.leaf l) (.leaf r))))
    (fun k => (pathGates u t p).prod * ((1 - gate e.w u) * gate e.w u * (1 :: u).getD j 0 * (l.w0s.getD k 0 - r.w0s.getD k 0)))
    (e.w.getD j 0) (by
      intro k hk
      simp only [hscore _ k hk]
      exact (((hgate.sub_const (gate e.w u)).mul_const (l.w0s.getD k 0 - r.w0s.getD k 0)).const_mul
        ((pathGates u t p).prod)).const_add (treeScores x t k))
  refine this.congr_deriv ?_
  refine Finset.sum_congr rfl (fun k hk => ?_)
  congr 1
  unfold outError
  rw [hself k (Finset.mem_range.1 hk)]
  congr 2
  exact Finset.sum_congr rfl (fun j hj => by rw [hself j (Finset.mem_range.1 hj)])

end

/-! ## one presentation of an instance -/

theorem moved_getD (alpha : ℝ) (n : Nat) (old upd prev : List ℝ) {k : Nat} (hk : k < n) :
    (moved alpha n old upd prev).getD k 0 = old.getD k 0 + upd.getD k 0 + alpha * prev.getD k 0 := by
  unfold moved
  simp only [add_real, mul_real, zero_real]
  have : ((List.range n).map (fun (k : Nat) => old.getD k 0 + (upd.getD k 0 + alpha * prev.getD k 0))).getD k 0 =
      old.getD k 0 + (upd.getD k 0 + alpha * prev.getD k 0) := by simp [hk]
  rw [this, add_assoc]

theorem range_map_getD (n : Nat) (f : Nat → ℝ) {k : Nat} (hk : k < n) : ((List.range n).map f).getD k 0 = f k := by simp [hk]

theorem featureF_real (u : List ℝ) (j : Nat) : featureF u j = (1 :: u).getD j 0 := by
  unfold featureF biased
  rw [one_real, zero_real]

/-- what one presentation does, in closed form -/
theorem present_values {labels : List String} {d : Nat} {x : Inst ℝ} {u : List ℝ} (hx : NumbersAre x u d) {t : SoftNode ℝ}
    (ht : t.Sized labels.length d) {p : List Bool} {e l r : SoftData ℝ} {ws : List ℝ}
    (hat : t.at p = .ok (.split e (.leaf l) (.leaf r), ws)) (hc : x.label ∈ labels) (alpha eta : ℝ) (prev : SoftPrev ℝ)
    (hp : prev.Sized labels.length d) :
    ∃ t' prev' e' l' r' ws', softPresent labels alpha eta p (t, prev) x = .ok (t', prev') ∧
      t'.at p = .ok (.split e' (.leaf l') (.leaf r'), ws') ∧
      (∀ k < labels.length, prev'.left.getD k 0 =
          eta * (outError labels.length (labels.idxOf x.label) (treeScores x t) k * ((pathGates u t p).prod * gate e.w u)) ∧
        l'.w0s.getD k 0 = l.w0s.getD k 0 + prev'.left.getD k 0 + alpha * prev.left.getD k 0) ∧
      (∀ k < labels.length, prev'.right.getD k 0 =
          eta * (outError labels.length (labels.idxOf x.label) (treeScores x t) k * ((pathGates u t p).prod * (1 - gate e.w u))) ∧
        r'.w0s.getD k 0 = r.w0s.getD k 0 + prev'.right.getD k 0 + alpha * prev.right.getD k 0) ∧
      (∀ j < d + 1, prev'.w.getD j 0 =
          eta * ∑ k ∈ Finset.range labels.length, outError labels.length (labels.idxOf x.label) (treeScores x t) k *
            ((pathGates u t p).prod * ((1 - gate e.w u) * gate e.w u * (1 :: u).getD j 0 * (l.outputs.getD k 0 - r.outputs.getD k 0))) ∧
        e'.w.getD j 0 = e.w.getD j 0 + prev'.w.getD j 0 + alpha * prev.w.getD j 0) ∧
      l'.outputs = l.outputs ∧ r'.outputs = r.outputs := by
  obtain ⟨e1, h1, he1⟩ := mark_at u t p ws hat
  have hms := mark_sized u ht
  have hns := at_sized _ _ _ _ h1 hms
  obtain ⟨ul, ur, uw, q1, q2, q3, q4⟩ := softUpdate_ok hx alpha ((pathGates u t p).foldl (fun a b => a *. b) eta) (labels.idxOf x.label)
    (normalizeOutput (softOut u t)) (by rw [normalizeOutput_length, softOut_length ht]) prev hp e1 _ _ hns
  have hdelta : ∀ k < labels.length, deltaF (labels.idxOf x.label) (normalizeOutput (softOut u t)) k =
      outError labels.length (labels.idxOf x.label) (treeScores x t) k := fun k hk =>
    delta_outError (softOut_length ht) _ k hk _ (fun k => treeScores_eq hx ht k)
  obtain ⟨ws', hws'⟩ := at_put (mark u t) p _ (.split { e1 with w := moved alpha (d + 1) e1.w uw prev.w }
    (.leaf { l with weight := gate e.w u, w0s := moved alpha labels.length l.w0s ul prev.left })
    (.leaf { r with weight := 1 - gate e.w u, w0s := moved alpha labels.length r.w0s ur prev.right })) _ h1
  refine ⟨_, ⟨ul, ur, uw⟩, _, _, _, ws', ?_, hws', ?_, ?_, ?_, rfl, rfl⟩
  · unfold softPresent classIndex
    simp only [calcOutput_ok hx ht, res_bind_ok, if_pos hc, res_pure, h1, q4]
    rfl
  · intro k hk
    refine ⟨?_, moved_getD _ _ _ _ _ hk⟩
    rw [q1, range_map_getD _ _ hk, hdelta k hk, foldl_mul_real]
    simp only [mul_real, SoftNode.data]
    ring
  · intro k hk
    refine ⟨?_, moved_getD _ _ _ _ _ hk⟩
    rw [q2, range_map_getD _ _ hk, hdelta k hk, foldl_mul_real]
    simp only [mul_real, SoftNode.data]
    ring
  · intro j hj
    refine ⟨?_, ?_⟩
    · rw [q3, range_map_getD _ _ hj, foldl_mul_real]
      unfold splitF
      simp only [SoftNode.data, mul_real, sub_real, add_real, zero_real]
      have hsum : ∀ (f : Nat → ℝ) (n : Nat), (List.range n).foldl (fun s k => s + f k) 0 = ∑ k ∈ Finset.range n, f k := by
        intro f n
        induction n with
        | zero => simp
        | succ n ih => rw [List.range_succ, List.foldl_append, ih, Finset.sum_range_succ]; rfl
      rw [hsum, Finset.mul_sum]
      refine Finset.sum_congr rfl (fun k hk => ?_)
      rw [hdelta k (Finset.mem_range.1 hk)]
      rw [featureF_real]
      ring
    · rw [moved_getD _ _ _ _ _ hj, he1]

/-- **C122, leaves.** Presenting an instance during the growth of a soft decision tree adds to each
component of the vectors of the two new leaves the learning rate times the derivative of the
log-probability the tree gives to the class of the instance, plus `alpha` times the previous
change; the change without the last term is remembered as the previous change. -/
theorem C122_leaf_gradient {labels : List String} {d : Nat} {x : Inst ℝ} (hx : AllNumbers d x) {t : SoftNode ℝ}
    (ht : t.Sized labels.length d) {p : List Bool} {e l r : SoftData ℝ} {ws : List ℝ}
    (hat : t.at p = .ok (.split e (.leaf l) (.leaf r), ws)) (hc : x.label ∈ labels) (alpha eta : ℝ) (prev : SoftPrev ℝ)
    (hp : prev.Sized labels.length d) :
    ∃ t' prev' e' l' r' ws', softPresent labels alpha eta p (t, prev) x = .ok (t', prev') ∧
      t'.at p = .ok (.split e' (.leaf l') (.leaf r'), ws') ∧ ∀ k < labels.length,
      (∃ g, HasDerivAt (fun v => logProb labels.length
          (treeScores x (t.put p (.split e (.leaf { l with w0s := l.w0s.set k v }) (.leaf r)))) (labels.idxOf x.label)) g (l.w0s.getD k 0) ∧
        prev'.left.getD k 0 = eta * g ∧ l'.w0s.getD k 0 = l.w0s.getD k 0 + eta * g + alpha * prev.left.getD k 0) ∧
      (∃ g, HasDerivAt (fun v => logProb labels.length
          (treeScores x (t.put p (.split e (.leaf l) (.leaf { r with w0s := r.w0s.set k v })))) (labels.idxOf x.label)) g (r.w0s.getD k 0) ∧
        prev'.right.getD k 0 = eta * g ∧ r'.w0s.getD k 0 = r.w0s.getD k 0 + eta * g + alpha * prev.right.getD k 0) := by
  obtain ⟨u, hu⟩ := hx
  obtain ⟨t', prev', e', l', r', ws', h1, h2, h3, h4, h5, _⟩ := present_values hu ht hat hc alpha eta prev hp
  have hcl : labels.idxOf x.label < labels.length := List.idxOf_lt_length_iff.2 hc
  refine ⟨t', prev', e', l', r', ws', h1, h2, fun k hk => ⟨⟨_, left_deriv hu ht hat _ k hcl hk, (h3 k hk).1, ?_⟩,
    ⟨_, right_deriv hu ht hat _ k hcl hk, (h4 k hk).1, ?_⟩⟩⟩
  · rw [(h3 k hk).2, (h3 k hk).1]
  · rw [(h4 k hk).2, (h4 k hk).1]

/-- **C122, weights of the split (partial).** The same holds for the weights of the split if the
`outputs` stored in the two leaves equal their vectors. (They do not: `C122_split_refuted`.) -/
theorem C122_split_gradient_partial {labels : List String} {d : Nat} {x : Inst ℝ} (hx : AllNumbers d x) {t : SoftNode ℝ}
    (ht : t.Sized labels.length d) {p : List Bool} {e l r : SoftData ℝ} {ws : List ℝ}
    (hat : t.at p = .ok (.split e (.leaf l) (.leaf r), ws)) (hc : x.label ∈ labels) (alpha eta : ℝ) (prev : SoftPrev ℝ)
    (hp : prev.Sized labels.length d) (hl : l.outputs = l.w0s) (hr : r.outputs = r.w0s) :
    ∃ t' prev' e' l' r' ws', softPresent labels alpha eta p (t, prev) x = .ok (t', prev') ∧
      t'.at p = .ok (.split e' (.leaf l') (.leaf r'), ws') ∧ ∀ j < d + 1,
      ∃ g, HasDerivAt (fun v => logProb labels.length
          (treeScores x (t.put p (.split { e with w := e.w.set j v } (.leaf l) (.leaf r)))) (labels.idxOf x.label)) g (e.w.getD j 0) ∧
        prev'.w.getD j 0 = eta * g ∧ e'.w.getD j 0 = e.w.getD j 0 + eta * g + alpha * prev.w.getD j 0 := by
  obtain ⟨u, hu⟩ := hx
  obtain ⟨t', prev', e', l', r', ws', h1, h2, h3, h4, h5, _⟩ := present_values hu ht hat hc alpha eta prev hp
  have hcl : labels.idxOf x.label < labels.length := List.idxOf_lt_length_iff.2 hc
  refine ⟨t', prev', e', l', r', ws', h1, h2, fun j hj => ⟨_, split_deriv hu ht hat _ j hcl hj, ?_, ?_⟩⟩
  · rw [(h5 j hj).1, hl, hr]
  · rw [(h5 j hj).2, (h5 j hj).1, hl, hr]

/-- the `outputs` of the two leaves never change, whatever is presented: they stay the random
numbers of the constructor -/
theorem C122_outputs_frozen {labels : List String} {d : Nat} {x : Inst ℝ} (hx : AllNumbers d x) {t : SoftNode ℝ}
    (ht : t.Sized labels.length d) {p : List Bool} {e l r : SoftData ℝ} {ws : List ℝ}
    (hat : t.at p = .ok (.split e (.leaf l) (.leaf r), ws)) (hc : x.label ∈ labels) (alpha eta : ℝ) (prev : SoftPrev ℝ)
    (hp : prev.Sized labels.length d) :
    ∃ t' prev' e' l' r' ws', softPresent labels alpha eta p (t, prev) x = .ok (t', prev') ∧
      t'.at p = .ok (.split e' (.leaf l') (.leaf r'), ws') ∧ l'.outputs = l.outputs ∧ r'.outputs = r.outputs := by
  obtain ⟨u, hu⟩ := hx
  obtain ⟨t', prev', e', l', r', ws', h1, h2, _, _, _, h3⟩ := present_values hu ht hat hc alpha eta prev hp
  exact ⟨t', prev', e', l', r', ws', h1, h2, h3⟩

/-- two leaves with different vectors but equal `outputs` -/
noncomputable def frozenTree : SoftNode ℝ :=
  .split ⟨[0, 0], [0, 0], [0, 0], 0⟩ (.leaf ⟨[1, 0], [0, 0], [0, 0], 0⟩) (.leaf ⟨[0, 0], [0, 0], [0, 0], 0⟩)

noncomputable def frozenInst : Inst ℝ := ⟨"a", [.continuous 2], none⟩

theorem frozenTree_sized : frozenTree.Sized 2 1 := by simp [frozenTree, SoftNode.Sized, SoftData.Sized]

/-- **C122 is refuted for the weights of the split.** There is a tree and an instance for which the
weights stay as they are although the log-probability of its class has a positive derivative. -/
theorem C122_split_refuted : ∃ (t' : SoftNode ℝ) (prev' : SoftPrev ℝ) (e' l' r' : SoftData ℝ) (ws' : List ℝ) (g : ℝ),
    softPresent ["a", "b"] 0 1 [] (frozenTree, ⟨[0, 0], [0, 0], [0, 0]⟩) frozenInst = .ok (t', prev') ∧
    t'.at [] = .ok (.split e' (.leaf l') (.leaf r'), ws') ∧
    HasDerivAt (fun v => logProb 2 (treeScores frozenInst (.split ⟨[0, 0], [v, 0], [0, 0], 0⟩ (.leaf ⟨[1, 0], [0, 0], [0, 0], 0⟩)
      (.leaf ⟨[0, 0], [0, 0], [0, 0], 0⟩))) 0) g 0 ∧ 0 < g ∧ e'.w.getD 0 0 = 0 := by
  have hx : NumbersAre frozenInst [2] 1 := ⟨rfl, rfl⟩
  obtain ⟨t', prev', e', l', r', ws', h1, h2, h3, h4, h5, _⟩ := present_values (labels := ["a", "b"]) hx frozenTree_sized (p := []) rfl
    (by simp [frozenInst]) 0 1 ⟨[0, 0], [0, 0], [0, 0]⟩ ⟨rfl, rfl, rfl⟩
  have hd := split_deriv (labels := ["a", "b"]) hx frozenTree_sized (p := []) rfl 0 0 (by simp) (by simp)
  refine ⟨t', prev', e', l', r', ws', _, h1, h2, hd, ?_, ?_⟩
  · show 0 < ∑ k ∈ Finset.range 2, outError 2 0 (treeScores frozenInst frozenTree) k *
      ((pathGates [2] frozenTree []).prod * ((1 - gate [0, 0] [2]) * gate [0, 0] [2] * ([1, 2] : List ℝ).getD 0 0 *
        (([1, 0] : List ℝ).getD k 0 - ([0, 0] : List ℝ).getD k 0)))
    have hg1 := gate_pos [0, 0] [2]
    have hg2 := gate_lt_one [0, 0] [2]
    have he : 0 < outError 2 0 (treeScores frozenInst frozenTree) 0 := by
      unfold outError
      rw [if_pos rfl, Finset.sum_range_succ, Finset.sum_range_one]
      have a1 := Real.exp_pos (treeScores frozenInst frozenTree 0)
      have a2 := Real.exp_pos (treeScores frozenInst frozenTree 1)
      rw [sub_pos, div_lt_one (by linarith)]
      linarith
    rw [Finset.sum_range_succ, Finset.sum_range_one]
    simp only [pathGates, List.prod_nil, List.getD_cons_zero, List.getD_cons_succ, sub_zero, sub_self, mul_zero, mul_one, one_mul, add_zero]
    exact mul_pos he (mul_pos (by linarith) hg1)
  · have := h5 0 (by simp)
    rw [this.2, this.1]
    show ([0, 0] : List ℝ).getD 0 0 + 1 * (∑ k ∈ Finset.range 2, _ * (_ * (_ * (([0, 0] : List ℝ).getD k 0 - ([0, 0] : List ℝ).getD k 0)))) + _ = 0
    simp

/-- the hypotheses of the gradient theorems can be met -/
example : ∃ t' prev', softPresent ["a", "b"] (1/10) 5 [] (frozenTree, ⟨[0, 0], [0, 0], [0, 0]⟩) frozenInst = .ok (t', prev') := by
  obtain ⟨t', prev', _, _, _, _, h, _⟩ := C122_leaf_gradient (labels := ["a", "b"]) (x := frozenInst) ⟨[2], rfl, rfl⟩ frozenTree_sized
    (p := []) rfl (by simp [frozenInst]) (1/10) 5 ⟨[0, 0], [0, 0], [0, 0]⟩ ⟨rfl, rfl, rfl⟩
  exact ⟨t', prev', h⟩

end Verif
