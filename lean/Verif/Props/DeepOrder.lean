import Verif.Props.HiddenOrder
import Verif.Props.NetTrain
import Verif.Props.LayerDraws
import Verif.Props.SoftTree
import Verif.Spec.DeepOrder

/-! # Property C226 for networks with several hidden layers -/

set_option linter.unusedSectionVars false

namespace Verif
open Dbl

/-- two vectors of which the second is the first renumbered -/
def VecRen (N : Nat) (σ : List Nat) (a b : List ℝ) : Prop := ∃ f : Nat → ℝ, a = vec N f ∧ b = vec N (fun i => f (σ.getD i 0))

/-- the same with the constant input in front -/
def BiasRen (N : Nat) (σ : List Nat) (a b : List ℝ) : Prop :=
  ∃ f : Nat → ℝ, a = vec (N + 1) (withBias f) ∧ b = vec (N + 1) (withBias (fun i => f (σ.getD i 0)))

theorem VecRen.biased {N : Nat} {σ : List Nat} {a b : List ℝ} (h : VecRen N σ a b) : BiasRen N σ (biased a) (biased b) := by
  obtain ⟨f, rfl, rfl⟩ := h
  exact ⟨f, biased_vec _ _, biased_vec _ _⟩

/-- the changes of a layer -/
def DeltaRen (n m : Nat) (τ σ : List Nat) (D D' : Mat ℝ) : Prop :=
  ∃ d d' v v', VecRen m σ d d' ∧ BiasRen n τ v v' ∧ D = Mat.outer d v ∧ D' = Mat.outer d' v'

section
variable {n m : Nat} {τ σ : List Nat} {A A' : Mat ℝ}

theorem LayerRenumbered.sums (h : LayerRenumbered n m τ σ A A') (hτ : IsPermutation τ n) {v v' : List ℝ} (hv : BiasRen n τ v v') :
    ∃ s : Nat → ℝ, A.mulRightR v = .ok (vec m s) ∧ A'.mulRightR v' = .ok (vec m (fun i => s (σ.getD i 0))) := by
  obtain ⟨f, rfl, rfl⟩ := hv
  refine ⟨score A (withBias f), ?_, ?_⟩
  · rw [← h.cols.1, mulRightR_vec, h.rows.1]
  · rw [← h.cols.2, mulRightR_vec, h.rows.2]
    congr 1
    refine vec_congr (fun i hi => ?_)
    unfold score
    rw [h.cols.1, h.cols.2, Finset.sum_range_succ', Finset.sum_range_succ', h.bias i hi,
      ← sum_columns hτ (fun j => A.e (σ.getD i 0) (j + 1) * withBias f (j + 1))]
    congr 1
    refine Finset.sum_congr rfl (fun j hj => ?_)
    rw [h.from_ i hi j (Finset.mem_range.1 hj)]
    rfl

theorem LayerRenumbered.hidden (h : LayerRenumbered n m τ σ A A') (hτ : IsPermutation τ n) (act : Activation) {v v' : List ℝ}
    (hv : BiasRen n τ v v') : ResRel (VecRen m σ) (calculateHidden v A act) (calculateHidden v' A' act) := by
  obtain ⟨s, e1, e2⟩ := h.sums hτ hv
  unfold calculateHidden
  rw [e1, e2]
  simp only [res_bind_ok, res_pure, activate_vec]
  exact ⟨fun i => actReal act (s i), rfl, rfl⟩

/-- the error passed back through a layer -/
theorem LayerRenumbered.back (h : LayerRenumbered n m τ σ A A') (hσ : IsPermutation σ m) {r r' : List ℝ} (hr : VecRen m σ r r') :
    ResRel (VecRen n τ) (A.mulLeftR r >>= removeFirst) (A'.mulLeftR r' >>= removeFirst) := by
  obtain ⟨q, rfl, rfl⟩ := hr
  have l1 := mulLeftR_vec A q
  have l2 := mulLeftR_vec A' (fun i => q (σ.getD i 0))
  rw [h.rows.1, h.cols.1, vec_succ] at l1
  rw [h.rows.2, h.cols.2, vec_succ] at l2
  rw [l1, l2]
  simp only [res_bind_ok, removeFirst]
  refine ⟨fun j => ∑ i ∈ Finset.range m, q i * A.e i (j + 1), rfl, ?_⟩
  refine vec_congr (fun j hj => ?_)
  show _ = ∑ i ∈ Finset.range m, q i * A.e i (τ.getD j 0 + 1)
  rw [← sum_columns hσ (fun i => q i * A.e i (τ.getD j 0 + 1))]
  refine Finset.sum_congr rfl (fun i hi => ?_)
  rw [h.from_ i (Finset.mem_range.1 hi) j hj]

theorem LayerRenumbered.changed (h : LayerRenumbered n m τ σ A A') (hτ : IsPermutation τ n) (hσ : IsPermutation σ m) (eta : ℝ) {D D' : Mat ℝ}
    (hD : DeltaRen n m τ σ D D') : ∃ B B', A.addR (D.scale eta) = .ok B ∧ A'.addR (D'.scale eta) = .ok B' ∧ LayerRenumbered n m τ σ B B' := by
  obtain ⟨_, _, _, _, ⟨d, rfl, rfl⟩, ⟨f, rfl, rfl⟩, rfl, rfl⟩ := hD
  obtain ⟨B, a1, a2, a3, a4⟩ := outer_vec_scale_add A d (withBias f) eta
  obtain ⟨B', b1, b2, b3, b4⟩ := outer_vec_scale_add A' (fun i => d (σ.getD i 0)) (withBias (fun i => f (τ.getD i 0))) eta
  rw [h.rows.1, h.cols.1] at a1
  rw [h.rows.2, h.cols.2] at b1
  refine ⟨B, B', a1, b1, ⟨by rw [a2, h.rows.1], by rw [b2, h.rows.2]⟩, ⟨by rw [a3, h.cols.1], by rw [b3, h.cols.2]⟩, ?_, ?_⟩
  · intro i hi
    have hs := perm_getD_lt hσ hi
    rw [a4 _ (by rw [h.rows.1]; exact hs) 0 (by rw [h.cols.1]; omega), b4 i (by rw [h.rows.2]; exact hi) 0 (by rw [h.cols.2]; omega),
      h.bias i hi]
    rfl
  · intro i hi j hj
    have hs := perm_getD_lt hσ hi
    have ht := perm_getD_lt hτ hj
    rw [a4 _ (by rw [h.rows.1]; exact hs) _ (by rw [h.cols.1]; omega), b4 i (by rw [h.rows.2]; exact hi) _ (by rw [h.cols.2]; omega),
      h.from_ i hi j hj]
    rfl

end

theorem VecRen.elem {N : Nat} {σ : List Nat} {a b c d : List ℝ} (h : VecRen N σ a b) (h' : VecRen N σ c d) :
    ResRel (VecRen N σ) (elemR a c) (elemR b d) := by
  obtain ⟨f, rfl, rfl⟩ := h
  obtain ⟨g, rfl, rfl⟩ := h'
  rw [elemR_vec, elemR_vec]
  exact ⟨fun i => f i * g i, rfl, rfl⟩

theorem VecRen.derivative {N : Nat} {σ : List Nat} {a b : List ℝ} (h : VecRen N σ a b) (act : Activation) (layers : Nat) :
    ResRel (VecRen N σ) (deepDerivative act layers a) (deepDerivative act layers b) := by
  cases act with
  | sigmoid =>
    obtain ⟨f, rfl, rfl⟩ := h
    unfold deepDerivative oneMinusHidden
    simp only [vec_length]
    rw [replicate_vec, diffR_vec, diffR_vec]
    simp only [res_bind_ok]
    rw [elemR_vec, elemR_vec]
    exact ⟨fun i => (Dbl.one - f i) * f i, rfl, rfl⟩
  | tanh =>
    obtain ⟨f, rfl, rfl⟩ := h
    unfold deepDerivative
    simp only
    rw [vec_map, vec_map, elemR_vec, elemR_vec]
    simp only [res_bind_ok]
    rw [replicate_vec]
    by_cases hl : layers = N
    · subst hl
      rw [diffR_vec, diffR_vec]
      exact ⟨fun i => Dbl.one - Dbl.tanh (f i) * Dbl.tanh (f i), rfl, rfl⟩
    · unfold diffR subChecked
      rw [if_neg (by simp only [vec_length]; exact hl), if_neg (by simp only [vec_length]; exact hl)]
      exact rfl
  | relu =>
    obtain ⟨f, rfl, rfl⟩ := h
    unfold deepDerivative
    simp only [res_pure]
    rw [vec_map, vec_map]
    exact ⟨fun i => reluDerivF (f i), rfl, rfl⟩

/-! ## lists of layers -/

/-- lists related entry by entry -/
def EachRel {α : Type} (P : Nat → α → α → Prop) (l l' : List α) : Prop :=
  l'.length = l.length ∧ ∀ k a b, l[k]? = some a → l'[k]? = some b → P k a b

theorem EachRel.get {α : Type} {P : Nat → α → α → Prop} {l l' : List α} (h : EachRel P l l') (k : Nat) :
    ResRel (P k) (atR l k) (atR l' k) := by
  unfold atR
  by_cases hk : k < l.length
  · rw [List.getElem?_eq_getElem hk, List.getElem?_eq_getElem (by rw [h.1]; exact hk)]
    exact h.2 k _ _ (List.getElem?_eq_getElem hk) (List.getElem?_eq_getElem (by rw [h.1]; exact hk))
  · rw [List.getElem?_eq_none (by omega), List.getElem?_eq_none (by rw [h.1]; omega)]
    exact rfl

theorem EachRel.cons {α : Type} {P : Nat → α → α → Prop} {a b : α} {l l' : List α} (hab : P 0 a b) (h : EachRel (fun k => P (k + 1)) l l') :
    EachRel P (a :: l) (b :: l') := by
  refine ⟨by simp [h.1], ?_⟩
  intro k x y hx hy
  cases k with
  | zero => cases hx; cases hy; exact hab
  | succ k => exact h.2 k x y hx hy

theorem EachRel.uncons {α : Type} {P : Nat → α → α → Prop} {a b : α} {l l' : List α} (h : EachRel P (a :: l) (b :: l')) :
    P 0 a b ∧ EachRel (fun k => P (k + 1)) l l' :=
  ⟨h.2 0 a b rfl rfl, by simpa using h.1, fun k x y hx hy => h.2 (k + 1) x y hx hy⟩

theorem EachRel.snoc {α : Type} {P : Nat → α → α → Prop} {a b : α} {l l' : List α} (h : EachRel P l l') (hab : P l.length a b) :
    EachRel P (l ++ [a]) (l' ++ [b]) := by
  refine ⟨by simp [h.1], ?_⟩
  intro k x y hx hy
  by_cases hk : k < l.length
  · rw [List.getElem?_append_left hk] at hx
    rw [List.getElem?_append_left (by rw [h.1]; exact hk)] at hy
    exact h.2 k x y hx hy
  · rw [List.getElem?_append_right (by omega)] at hx
    rw [List.getElem?_append_right (by rw [h.1]; omega), h.1] at hy
    by_cases e : k = l.length
    · subst e
      simp only [Nat.sub_self, List.getElem?_cons_zero, Option.some.injEq] at hx hy
      subst hx hy
      exact hab
    · rw [List.getElem?_eq_none (by simp; omega)] at hx
      cases hx

/-- the changes of the layers applied -/
theorem apply_renumbered (eta : ℝ) : ∀ (ws ws' ds ds' : List (Mat ℝ)) (size : Nat → Nat) (perm : Nat → List Nat),
    (∀ k ≤ ws.length, IsPermutation (perm k) (size k)) →
    EachRel (fun k => LayerRenumbered (size k) (size (k + 1)) (perm k) (perm (k + 1))) ws ws' →
    EachRel (fun k => DeltaRen (size k) (size (k + 1)) (perm k) (perm (k + 1))) ds ds' →
    ResRel (fun r r' => EachRel (fun k => LayerRenumbered (size k) (size (k + 1)) (perm k) (perm (k + 1))) r r' ∧ r.length = ws.length)
      (deepApply eta ws ds) (deepApply eta ws' ds')
  | [], ws', ds, ds', size, perm, _, hw, _ => by
    have : ws' = [] := List.length_eq_zero_iff.1 hw.1
    subst this
    rw [deepApply, deepApply]
    exact ⟨hw, rfl⟩
  | w :: ws, [], ds, ds', size, perm, _, hw, _ => by simp [EachRel] at hw
  | w :: ws, w' :: ws', [], ds', size, perm, _, hw, hd => by
    have : ds' = [] := List.length_eq_zero_iff.1 hd.1
    subst this
    exact rfl
  | w :: ws, w' :: ws', d :: ds, [], size, perm, _, hw, hd => by simp [EachRel] at hd
  | w :: ws, w' :: ws', d :: ds, d' :: ds', size, perm, hp, hw, hd => by
    obtain ⟨w0, wr⟩ := hw.uncons
    obtain ⟨d0, dr⟩ := hd.uncons
    obtain ⟨B, B', b1, b2, b3⟩ := w0.changed (hp 0 (by simp)) (hp 1 (by simp)) eta d0
    rw [deepApply, deepApply, b1, b2]
    simp only
    refine ResRel.map_of (apply_renumbered eta ws ws' ds ds' (fun k => size (k + 1)) (fun k => perm (k + 1))
      (fun k hk => hp (k + 1) (by simp; exact hk)) wr dr) (fun r r' hr => ?_)
    exact ⟨EachRel.cons (P := fun k => LayerRenumbered (size k) (size (k + 1)) (perm k) (perm (k + 1))) b3 hr.1, by simp [hr.2]⟩

section
variable {size : Nat → Nat} {perm : Nat → List Nat} {L : Nat} {ws ws' : List (Mat ℝ)} {v v' : List ℝ}

/-- what the two forward passes have computed after some layers -/
def PassRen (size : Nat → Nat) (perm : Nat → List Nat) (k : Nat) (s s' : List (List ℝ) × List (List ℝ)) : Prop :=
  s.1.length = k ∧ s.2.length = k ∧ EachRel (fun j => VecRen (size (j + 1)) (perm (j + 1))) s.1 s'.1 ∧
    EachRel (fun j => BiasRen (size (j + 1)) (perm (j + 1))) s.2 s'.2

theorem input_renumbered {hb hb' : List (List ℝ)} (hv : BiasRen (size 0) (perm 0) v v')
    (h : EachRel (fun j => BiasRen (size (j + 1)) (perm (j + 1))) hb hb') (k : Nat) :
    ResRel (BiasRen (size k) (perm k)) (layerInput v hb k) (layerInput v' hb' k) := by
  unfold layerInput
  cases k with
  | zero => exact hv
  | succ k => exact h.get k

theorem pass_renumbered (hp : ∀ k ≤ L + 1, IsPermutation (perm k) (size k)) (hw : DeepRenumbered size perm ws ws')
    (act : Activation) (hv : BiasRen (size 0) (perm 0) v v') : ∀ k ≤ L,
    ResRel (PassRen size perm k) ((List.range k).foldlM (deepForwardStep act ws v) ([], []))
      ((List.range k).foldlM (deepForwardStep act ws' v') ([], []))
  | 0, _ => ⟨rfl, rfl, ⟨rfl, fun k a b h => by simp at h⟩, ⟨rfl, fun k a b h => by simp at h⟩⟩
  | k + 1, hk => by
    rw [List.range_succ, List.foldlM_append, List.foldlM_append]
    refine (pass_renumbered hp hw act hv k (by omega)).bind (fun s s' hs => ?_)
    simp only [List.foldlM_cons, List.foldlM_nil, bind_pure]
    unfold deepForwardStep
    refine (input_renumbered hv hs.2.2.2 k).bind (fun i i' hi => ?_)
    refine (EachRel.get (P := fun k => LayerRenumbered (size k) (size (k + 1)) (perm k) (perm (k + 1))) ⟨hw.count, hw.layer⟩ k).bind
      (fun A A' hA => ?_)
    refine (hA.hidden (hp k (by omega)) act hi).bind (fun h h' hh => ?_)
    obtain ⟨a, b, c, d⟩ := hs
    exact ⟨by simp [a], by simp [b], c.snoc (by rw [a]; exact hh), d.snoc (by rw [b]; exact hh.biased)⟩

/-- the last weighted sums are the same -/
theorem last_renumbered {n m : Nat} {τ : List Nat} {A A' : Mat ℝ} (hτ : IsPermutation τ n) (h : LayerRenumbered n m τ (List.range m) A A')
    {a b : List ℝ} (hab : BiasRen n τ a b) : A'.mulRightR b = A.mulRightR a := by
  obtain ⟨s, e1, e2⟩ := h.sums hτ hab
  rw [e1, e2]
  congr 1
  refine vec_congr (fun i hi => ?_)
  congr 1
  rw [List.getD_eq_getElem?_getD, List.getElem?_range hi]
  rfl

/-- the state of the backward pass above layer `k` -/
def BackRen (size : Nat → Nat) (perm : Nat → List Nat) (count : Nat) (r : List ℝ) (k : Nat) (s s' : List ℝ × List (Mat ℝ)) : Prop :=
  VecRen (size (k + 1)) (perm (k + 1)) (if k + 1 = count then r else s.1) (if k + 1 = count then r else s'.1) ∧
  EachRel (fun j => DeltaRen (size (k + j)) (size (k + j + 1)) (perm (k + j)) (perm (k + j + 1))) s.2 s'.2

theorem back_renumbered (hp : ∀ k ≤ L + 1, IsPermutation (perm k) (size k)) (hw : DeepRenumbered size perm ws ws') (hl : ws.length = L + 1)
    (act : Activation) (hv : BiasRen (size 0) (perm 0) v v') (r : List ℝ) {f f' : List (List ℝ) × List (List ℝ)} (hf : PassRen size perm L f f') :
    ∀ k ≤ L, ∀ s s', BackRen size perm (L + 1) r k s s' →
    ResRel (BackRen size perm (L + 1) r 0) ((List.range k).reverse.foldlM (deepBackStep act ws v r f.1 f.2) s)
      ((List.range k).reverse.foldlM (deepBackStep act ws' v' r f'.1 f'.2) s')
  | 0, _, s, s', hs => hs
  | k + 1, hk, s, s', hs => by
    rw [List.range_succ, List.reverse_append, List.reverse_cons, List.reverse_nil, List.nil_append, List.singleton_append]
    simp only [List.foldlM_cons]
    refine ResRel.bind (R := BackRen size perm (L + 1) r k) ?_ (fun t t' ht => back_renumbered hp hw hl act hv r hf k (by omega) t t' ht)
    unfold deepBackStep
    rw [hw.count, hl, hf.2.2.1.1]
    refine (EachRel.get (P := fun k => LayerRenumbered (size k) (size (k + 1)) (perm k) (perm (k + 1))) ⟨hw.count, hw.layer⟩ (k + 1)).bind
      (fun A A' hA => ?_)
    rw [← bind_assoc, ← bind_assoc]
    refine (hA.back (hp (k + 1 + 1) (by omega)) hs.1).bind (fun t t' ht => ?_)
    refine (hf.2.2.1.get k).bind (fun h h' hh => ?_)
    refine (hh.derivative act _).bind (fun d d' hd => ?_)
    refine (ht.elem hd).bind (fun e e' he => ?_)
    refine (input_renumbered hv hf.2.2.2 k).bind (fun i i' hi => ?_)
    refine ⟨?_, ?_⟩
    · rw [if_neg (by omega), if_neg (by omega)]
      exact he
    · refine EachRel.cons (P := fun j => DeltaRen (size (k + j)) (size (k + j + 1)) (perm (k + j)) (perm (k + j + 1)))
        ⟨e, e', i, i', he, hi, rfl, rfl⟩ ?_
      have hs2 := hs.2
      have e1 : ∀ j, k + 1 + j = k + (j + 1) := fun j => by omega
      simp only [e1] at hs2
      exact hs2

theorem VecRen.same {N : Nat} {l : List ℝ} (h : l.length = N) : VecRen N (List.range N) l l := by
  refine ⟨fun i => l.getD i 0, by rw [← h]; exact eq_vec l, ?_⟩
  rw [← h]
  conv_lhs => rw [eq_vec l]
  refine vec_congr (fun i hi => ?_)
  rw [List.getD_eq_getElem?_getD (l := List.range _), List.getElem?_range hi]
  rfl

theorem range_keeps (f : Nat → ℝ) (n : Nat) : BiasRen n (List.range n) (vec (n + 1) (withBias f)) (vec (n + 1) (withBias f)) := by
  refine ⟨f, rfl, ?_⟩
  rw [← biased_vec, ← biased_vec]
  congr 1
  refine vec_congr (fun i hi => ?_)
  rw [List.getD_eq_getElem?_getD, List.getElem?_range hi]
  rfl

/-- one training instance -/
theorem deep_step_renumbered (hp : ∀ k ≤ L + 1, IsPermutation (perm k) (size k)) (hlast : perm (L + 1) = List.range (size (L + 1)))
    (h0 : perm 0 = List.range (size 0)) (act : Activation) (ls : List String) (eta : ℝ) (x : Inst ℝ) (hx : Numeric (size 0) x)
    (hw : DeepRenumbered size perm ws ws') (hl : ws.length = L + 1) :
    ResRel (fun u u' => DeepRenumbered size perm u u' ∧ u.length = L + 1) (deepStep ls act L eta ws x) (deepStep ls act L eta ws' x) := by
  unfold deepStep
  rw [inputVector_numeric hx]
  simp only [res_bind_ok]
  refine ResRel.caught ⟨hw, hl⟩ ?_
  have hv : BiasRen (size 0) (perm 0) (inputsOf (size 0) x) (inputsOf (size 0) x) := by
    rw [h0]
    exact range_keeps _ _
  generalize inputsOf (size 0) x = u at hv
  unfold deepDeltas
  simp only [bind_assoc]
  refine (pass_renumbered hp hw act hv L (le_refl L)).bind (fun f f' hf => ?_)
  by_cases hL : L = 0
  · simp only [if_pos hL]
    exact rfl
  simp only [if_neg hL, bind_assoc]
  refine (hf.2.2.2.get (L - 1)).bind (fun top top' ht => ?_)
  rw [show L - 1 + 1 = L by omega] at ht
  rw [hw.count, hl, Nat.add_sub_cancel]
  refine (EachRel.get (P := fun k => LayerRenumbered (size k) (size (k + 1)) (perm k) (perm (k + 1))) ⟨hw.count, hw.layer⟩ L).bind
    (fun A A' hA => ?_)
  have hA0 := hA
  rw [hlast] at hA
  have er : calculateRMinusY ls x top' A' = calculateRMinusY ls x top A := by
    unfold calculateRMinusY
    rw [last_renumbered (hp L (by omega)) hA ht]
  rw [er]
  refine ResRel.same _ (fun r hr => ?_)
  have rl : r.length = size (L + 1) := by
    obtain ⟨s, e1, _⟩ := hA.sums (hp L (by omega)) ht
    unfold calculateRMinusY at hr
    obtain ⟨u, _, hr⟩ := bind_ok_iff.1 hr
    rw [e1] at hr
    simp only [res_bind_ok] at hr
    unfold diffR subChecked at hr
    by_cases hu : u.length = (normalizeOutput (vec (size (L + 1)) s)).length
    · rw [if_pos hu] at hr
      injection hr with hr
      rw [← hr, List.length_zipWith, hu, normalizeOutput_length, vec_length, Nat.min_self]
    · rw [if_neg hu] at hr
      cases hr
  have hr' := VecRen.same rl
  rw [← hlast] at hr'
  refine (back_renumbered hp hw hl act hv r hf L (le_refl L) ([], [Mat.outer r top]) ([], [Mat.outer r top']) ⟨?_, ?_⟩).bind (fun s s' hs => ?_)
  · rw [if_pos rfl]
    exact hr'
  · refine ⟨rfl, ?_⟩
    intro k D D' hD hD'
    cases k with
    | zero =>
      cases hD
      cases hD'
      exact ⟨r, r, top, top', hr', ht, rfl, rfl⟩
    | succ k => simp at hD
  · simp only [pure_bind]
    have hs2 := hs.2
    simp only [Nat.zero_add] at hs2
    have := apply_renumbered eta ws ws' s.2 s'.2 size perm (fun k hk => hp k (by omega)) ⟨hw.count, hw.layer⟩ hs2
    revert this
    cases deepApply eta ws s.2 with
    | error e => cases deepApply eta ws' s'.2 <;> exact id
    | ok a =>
      cases deepApply eta ws' s'.2 with
      | error e => exact id
      | ok b => exact fun h => ⟨⟨h.1.1, h.1.2⟩, by rw [h.2, hl]⟩

/-- the outputs are the same -/
theorem deep_out_renumbered (hp : ∀ k ≤ L + 1, IsPermutation (perm k) (size k)) (hlast : perm (L + 1) = List.range (size (L + 1)))
    (hL : 0 < L) (act : Activation) (hv : BiasRen (size 0) (perm 0) v v') (hw : DeepRenumbered size perm ws ws') (hl : ws.length = L + 1) :
    deepOutput act ws' v' = deepOutput act ws v := by
  refine (ResRel.eq ?_).symm
  unfold deepOutput
  rw [hw.count, hl, Nat.add_sub_cancel]
  have pass : ∀ k ≤ L, ResRel (fun b b' => 0 < k → BiasRen (size k) (perm k) b b') ((List.range k).foldlM (deepOutputStep act ws v) [])
      ((List.range k).foldlM (deepOutputStep act ws' v') []) := by
    intro k
    induction k with
    | zero => intro _ h; cases h
    | succ k ih =>
      intro hk
      rw [List.range_succ, List.foldlM_append, List.foldlM_append]
      refine (ih (by omega)).bind (fun b b' hb => ?_)
      simp only [List.foldlM_cons, List.foldlM_nil, bind_pure]
      unfold deepOutputStep
      refine (EachRel.get (P := fun k => LayerRenumbered (size k) (size (k + 1)) (perm k) (perm (k + 1))) ⟨hw.count, hw.layer⟩ k).bind
        (fun A A' hA => ?_)
      have hi : BiasRen (size k) (perm k) (if k = 0 then v else b) (if k = 0 then v' else b') := by
        by_cases e : k = 0
        · rw [if_pos e, if_pos e, e]; exact hv
        · rw [if_neg e, if_neg e]; exact hb (by omega)
      exact (hA.hidden (hp k (by omega)) act hi).bind (fun h h' hh _ => hh.biased)
  refine (pass L (le_refl L)).bind (fun b b' hb => ?_)
  refine (EachRel.get (P := fun k => LayerRenumbered (size k) (size (k + 1)) (perm k) (perm (k + 1))) ⟨hw.count, hw.layer⟩ L).bind
    (fun A A' hA => ?_)
  rw [hlast] at hA
  rw [last_renumbered (hp L (by omega)) hA (hb hL)]
  exact ResRel.rfl_of (fun _ => rfl) _

end

/-- **C226** for a deep network, created new: each hidden layer may be numbered in another way. -/
theorem C226_deep_numbering (size : Nat → Nat) (perm : Nat → List Nat) (p : NetParam ℝ) (random' : Nat → Nat → Mat ℝ) (hidden : List Nat)
    (hp : ∀ k ≤ hidden.length + 1, IsPermutation (perm k) (size k)) (h0 : perm 0 = List.range (size 0))
    (hlast : perm (hidden.length + 1) = List.range (size (hidden.length + 1))) (act : Activation)
    (old : Net (List (Mat ℝ))) (hold : old.weights = []) (T : IList ℝ) (hT : ∀ y ∈ T, Numeric (size 0) y) (x : Inst ℝ) (hx : Numeric (size 0) x)
    (hw : ∀ ws ws', deepAllocate p.random T.getDistinctClassLabels (size 0) hidden [] = .ok ws →
      deepAllocate random' T.getDistinctClassLabels (size 0) hidden [] = .ok ws' → DeepRenumbered size perm ws ws') :
    (deepTrain (p.startingFrom random') hidden act old T >>= fun m => netPredict m.labels (deepOutput act m.weights) x) =
      (deepTrain p hidden act old T >>= fun m => netPredict m.labels (deepOutput act m.weights) x) ∧
    (deepTrain (p.startingFrom random') hidden act old T >>= fun m => netProbability m.labels (deepOutput act m.weights) x) =
      (deepTrain p hidden act old T >>= fun m => netProbability m.labels (deepOutput act m.weights) x) := by
  have num : ∀ z ∈ x :: T, Numeric (size 0) z := by
    intro z hz
    rcases List.mem_cons.1 hz with rfl | hz
    · exact hx
    · exact hT z hz
  have hk : InnerKept (size 0) (size 0) id (x :: T) := ⟨fun _ => ⟨rfl, rfl⟩, num, num, fun _ _ _ _ => rfl⟩
  have hv : ∀ y : Inst ℝ, BiasRen (size 0) (perm 0) (inputsOf (size 0) y) (inputsOf (size 0) y) := by
    intro y
    rw [h0]
    exact range_keeps _ _
  have ho : ∀ w w' y, y ∈ x :: T → ((DeepRenumbered size perm w w' ∧ w.length = hidden.length + 1) ∧ 0 < hidden.length) →
      deepOutput act w' (inputsOf (size 0) (id y)) = deepOutput act w (inputsOf (size 0) y) := by
    intro w w' y _ h
    exact deep_out_renumbered hp hlast h.2 act (hv y) h.1.1 h.1.2
  refine predict_alike (g := id) hk ho ?_ (List.mem_cons_self ..)
  have key := netTrain_alike (R := fun w w' => (DeepRenumbered size perm w w' ∧ w.length = hidden.length + 1) ∧ 0 < hidden.length) hk
    (fun y hy => List.mem_cons_of_mem _ hy) p (p.startingFrom random')
    ⟨rfl, rfl, rfl, rfl, rfl, rfl⟩
    (fun ls d => deepAllocate p.random ls d hidden old.weights)
    (fun ls d => deepAllocate random' ls d hidden old.weights) (fun _ => by
      rw [hold]
      by_cases hh : hidden = []
      · subst hh
        exact rfl
      · have e1 := deepAllocate_ok p.random T.getDistinctClassLabels (size 0) hidden hh []
        have e2 := deepAllocate_ok random' T.getDistinctClassLabels (size 0) hidden hh []
        have h1 := (deepAllocate_random _ _ _ _ _ e1).1
        have h2 := hw _ _ e1 e2
        rw [e1, e2]
        exact ⟨⟨h2, h1⟩, List.length_pos_iff.2 hh⟩)
    (fun ls => deepStep ls act hidden.length) (deepOutput act) (fun ls eta w w' y hy h => by
      have hs := deep_step_renumbered hp hlast h0 act ls eta y (num y hy) h.1.1 h.1.2
      show ResRel _ (deepStep ls act hidden.length eta w y) (deepStep ls act hidden.length eta w' y)
      revert hs
      cases deepStep ls act hidden.length eta w y with
      | error e => cases deepStep ls act hidden.length eta w' y <;> exact id
      | ok a =>
        cases deepStep ls act hidden.length eta w' y with
        | error e => exact id
        | ok b => exact fun q => ⟨q, h.2⟩) ho
  rw [List.map_id] at key
  exact key

/-! ## a network with two hidden layers, of two and of three nodes -/

/-- numbers of nodes -/
def layerSizes (k : Nat) : Nat := [1, 2, 3, 2].getD k 0

/-- the new numbering of every layer -/
def layerOrders (k : Nat) : List Nat := [[0], [1, 0], [2, 0, 1], [0, 1]].getD k []

/-- initial weights -/
noncomputable def firstWeights (r c : Nat) : Mat ℝ := ⟨r, c, fun i j => i + 3 * j⟩

/-- the same after renumbering; `r` and `c` tell which of the three matrices it is -/
noncomputable def renumberedWeights (r c : Nat) : Mat ℝ :=
  ⟨r, c, fun i j => (if c = 4 then i else (layerOrders (r - 1)).getD i 0 : Nat) +
    3 * (if c = 2 then j else if j = 0 then 0 else (layerOrders (c - 2)).getD (j - 1) 0 + 1 : Nat)⟩

/-- such weights and numberings meet the conditions -/
example : (∀ k ≤ 3, IsPermutation (layerOrders k) (layerSizes k)) ∧ layerOrders 0 = List.range (layerSizes 0) ∧
    layerOrders 3 = List.range (layerSizes 3) ∧
    ∀ ws ws', deepAllocate firstWeights ["a", "b"] (layerSizes 0) [2, 3] [] = .ok ws →
      deepAllocate renumberedWeights ["a", "b"] (layerSizes 0) [2, 3] [] = .ok ws' → DeepRenumbered layerSizes layerOrders ws ws' := by
  refine ⟨by unfold IsPermutation; decide, by decide, by decide, ?_⟩
  intro ws ws' h h'
  cases h
  cases h'
  refine ⟨rfl, ?_⟩
  intro k A A' hA hA'
  match k with
  | 0 =>
    cases hA; cases hA'
    refine ⟨⟨rfl, rfl⟩, ⟨rfl, rfl⟩, ?_, ?_⟩
    · intro i hi
      simp only [layerSizes] at hi
      have : i = 0 ∨ i = 1 := by simp at hi; omega
      rcases this with rfl | rfl <;> simp [renumberedWeights, firstWeights, layerOrders, layerSizes]
    · intro i hi j hj
      have hi' : i = 0 ∨ i = 1 := by simp [layerSizes] at hi; omega
      have hj' : j = 0 := by simp [layerSizes] at hj; omega
      subst hj'
      rcases hi' with rfl | rfl <;> simp [renumberedWeights, firstWeights, layerOrders, layerSizes]
  | 1 =>
    cases hA; cases hA'
    refine ⟨⟨rfl, rfl⟩, ⟨rfl, rfl⟩, ?_, ?_⟩
    · intro i hi
      have : i = 0 ∨ i = 1 ∨ i = 2 := by simp [layerSizes] at hi; omega
      rcases this with rfl | rfl | rfl <;> simp [renumberedWeights, firstWeights, layerOrders]
    · intro i hi j hj
      have hi' : i = 0 ∨ i = 1 ∨ i = 2 := by simp [layerSizes] at hi; omega
      have hj' : j = 0 ∨ j = 1 := by simp [layerSizes] at hj; omega
      rcases hi' with rfl | rfl | rfl <;> rcases hj' with rfl | rfl <;> simp [renumberedWeights, firstWeights, layerOrders] <;> norm_num
  | 2 =>
    cases hA; cases hA'
    refine ⟨⟨rfl, rfl⟩, ⟨rfl, rfl⟩, ?_, ?_⟩
    · intro i hi
      have : i = 0 ∨ i = 1 := by simp [layerSizes] at hi; omega
      rcases this with rfl | rfl <;> simp [renumberedWeights, firstWeights, layerOrders]
    · intro i hi j hj
      have hi' : i = 0 ∨ i = 1 := by simp [layerSizes] at hi; omega
      have hj' : j = 0 ∨ j = 1 ∨ j = 2 := by simp [layerSizes] at hj; omega
      rcases hi' with rfl | rfl <;> rcases hj' with rfl | rfl | rfl <;> simp [renumberedWeights, firstWeights, layerOrders] <;> norm_num
  | k + 3 => simp at hA

end Verif
