import Verif.Props.Normalize
import Verif.Props.Discriminant
import Mathlib.Algebra.BigOperators.Field

/-! # Property C114: principal components (exact arithmetic) -/

set_option linter.unusedSectionVars false

namespace Verif
open Dbl

theorem sum_map_finset {α : Type} (l : List α) (s : Finset ℕ) (f : α → ℕ → ℝ) :
    (l.map (fun x => ∑ i ∈ s, f x i)).sum = ∑ i ∈ s, (l.map (fun x => f x i)).sum := by
  induction l with
  | nil => simp
  | cons a l ih => simp [ih, Finset.sum_add_distrib]

theorem sum_map_const_mul {α : Type} (l : List α) (c : ℝ) (f : α → ℝ) :
    (l.map (fun x => c * f x)).sum = c * (l.map f).sum := by
  induction l with
  | nil => simp
  | cons a l ih => simp [ih]; ring

theorem dotProduct_real : ∀ (d : Nat) (u w : List ℝ), u.length = d → w.length = d →
    dotProduct u w = .ok (inner d u w) := by
  intro d u w hu hw
  unfold dotProduct
  rw [if_neg (by omega)]
  congr 1
  have h1 := foldl_add_real (List.zipWith (fun a b => a * b) u w) 0
  simp only [mul_real, zero_real, add_real] at *
  rw [h1, zero_add]
  clear h1
  unfold inner
  induction u generalizing d w with
  | nil => subst hu; simp
  | cons a u ih =>
    cases w with
    | nil => simp at hw hu; omega
    | cons b w =>
      cases d with
      | zero => simp at hu
      | succ d =>
        rw [Finset.sum_range_succ']
        simp only [List.zipWith_cons_cons, List.sum_cons, List.getD_cons_succ, List.getD_cons_zero]
        rw [ih d w (by simpa using hu) (by simpa using hw)]
        ring

theorem pcaFold_ok (d : Nat) (u : List ℝ) (hu : u.length = d) (es : List (List ℝ))
    (hes : ∀ e ∈ es, e.length = d) : ∀ x : Inst ℝ,
    es.foldl (pcaStep u) x =
      { x with attrs := x.attrs ++ es.map (fun e => .continuous (inner d u e)) } := by
  induction es with
  | nil => intro x; simp
  | cons e es ih =>
    intro x
    rw [List.foldl_cons, ih (fun e' he' => hes e' (by simp [he']))]
    unfold pcaStep
    rw [dotProduct_real d u e hu (hes e (by simp))]
    simp [Inst.addAttribute]

/-- the rows `v x` of an instance list are its numbers -/
structure NumericRows (l : IList ℝ) (v : Inst ℝ → List ℝ) (d : Nat) : Prop where
  rows : ∀ x ∈ l, x.attrs = (v x).map Attr.continuous
  width : ∀ x ∈ l, (v x).length = d

theorem mean_inner (l : IList ℝ) (v : Inst ℝ → List ℝ) (d : Nat) (e : List ℝ) :
    mean (l.map (fun x => inner d (v x) e)) =
      ∑ i ∈ Finset.range d, mean (l.map (fun x => (v x).getD i 0)) * e.getD i 0 := by
  unfold mean inner
  rw [sum_map_finset, List.length_map, Finset.sum_div]
  refine Finset.sum_congr rfl (fun i _ => ?_)
  have : (l.map (fun x => (v x).getD i 0 * e.getD i 0)).sum =
      e.getD i 0 * (l.map (fun x => (v x).getD i 0)).sum := by
    rw [← sum_map_const_mul]
    congr 1
    exact List.map_congr_left (fun x _ => mul_comm _ _)
  rw [this, List.length_map]
  ring

/-- covariance of two projections in terms of the covariance matrix -/
theorem sampleCov_inner (l : IList ℝ) (v : Inst ℝ → List ℝ) (d : Nat) (M : Nat → Nat → ℝ)
    (hM : ∀ i j, i < d → j < d → M i j =
      (l.map (fun x => ((v x).getD i 0 - mean (l.map (fun x => (v x).getD i 0))) *
        ((v x).getD j 0 - mean (l.map (fun x => (v x).getD j 0))))).sum / ((l.length : ℝ) - 1))
    (e f : List ℝ) :
    sampleCov l (fun x => inner d (v x) e) (fun x => inner d (v x) f) =
      ∑ i ∈ Finset.range d, e.getD i 0 * ∑ j ∈ Finset.range d, M i j * f.getD j 0 := by
  unfold sampleCov
  rw [mean_inner, mean_inner]
  set μ : ℕ → ℝ := fun i => mean (l.map (fun x => (v x).getD i 0)) with hμ
  have hx : ∀ x : Inst ℝ, (inner d (v x) e - ∑ i ∈ Finset.range d, μ i * e.getD i 0) *
      (inner d (v x) f - ∑ j ∈ Finset.range d, μ j * f.getD j 0) =
      ∑ i ∈ Finset.range d, ∑ j ∈ Finset.range d, (e.getD i 0 * f.getD j 0) *
        (((v x).getD i 0 - μ i) * ((v x).getD j 0 - μ j)) := by
    intro x
    unfold inner
    rw [← Finset.sum_sub_distrib, ← Finset.sum_sub_distrib, Finset.sum_mul_sum]
    refine Finset.sum_congr rfl (fun i _ => Finset.sum_congr rfl (fun j _ => ?_))
    ring
  have hx' : (l.map (fun x => (inner d (v x) e - ∑ i ∈ Finset.range d, μ i * e.getD i 0) *
      (inner d (v x) f - ∑ j ∈ Finset.range d, μ j * f.getD j 0))).sum =
      ∑ i ∈ Finset.range d, ∑ j ∈ Finset.range d, (e.getD i 0 * f.getD j 0) *
        (l.map (fun x => ((v x).getD i 0 - μ i) * ((v x).getD j 0 - μ j))).sum := by
    rw [List.map_congr_left (fun x _ => hx x), sum_map_finset]
    refine Finset.sum_congr rfl (fun i _ => ?_)
    rw [sum_map_finset]
    refine Finset.sum_congr rfl (fun j _ => ?_)
    rw [sum_map_const_mul]
  rw [hx', Finset.sum_div]
  refine Finset.sum_congr rfl (fun i hi => ?_)
  rw [Finset.sum_div, Finset.mul_sum]
  refine Finset.sum_congr rfl (fun j hj => ?_)
  rw [hM i j (Finset.mem_range.1 hi) (Finset.mem_range.1 hj)]
  ring

/-- **C114.** `Pca(ds, k).convert()` (exact arithmetic; the eigenvectors are those the math
library returns for the covariance matrix of the data): every instance keeps its label and gets
exactly `k` numbers, the inner products of its old numbers with the first `k` eigenvectors. When
the eigenvectors are an orthonormal eigenbasis, the new columns are uncorrelated and their
sample variances are the eigenvalues. -/
theorem C114_pca (characteristics : Nat × (Nat → Nat → ℝ) → Option (List (List ℝ))) (k d : Nat)
    (h : Heap ℝ) (ds : RefSet) (l : IList ℝ) (v : Inst ℝ → List ℝ) (hp : PointTo h ds.refs l)
    (hnd : ds.refs.Nodup) (h2 : 2 ≤ l.length) (hv : NumericRows l v d) :
    ∃ M : Nat → Nat → ℝ, (∀ i j, i < d → j < d → M i j = sampleCov l (fun x => (v x).getD i 0) (fun x => (v x).getD j 0)) ∧
      ∀ es ev, characteristics (d, M) = some es → IsEigenbasis d M es ev → k ≤ d →
      ∃ h', pca characteristics k h ds = .ok (h', ds) ∧
        ChangedAt (fun x y => y.label = x.label ∧ y.possible = x.possible ∧
          y.attrs = (es.take k).map (fun e => .continuous (inner d (v x) e))) ds.refs h h' ∧
        ∀ a b, a < k → b < k →
          sampleCov l (fun x => inner d (v x) (es.getD a [])) (fun x => inner d (v x) (es.getD b [])) =
            if a = b then ev a else 0 := by
  have hne : l ≠ [] := by rintro rfl; simp at h2
  have hv' : ∀ x ∈ l, x.attrs = (v x).map Attr.continuous ∧ (v x).length = d :=
    fun x hx => ⟨hv.rows x hx, hv.width x hx⟩
  have havg := contAverage_ok l hne v d hv'
  have hcont : ∀ x ∈ l, x.continuousAttributes = .ok (v x) := by
    intro x hx
    have := toVector_ok x (v x) (hv.rows x hx)
    exact this
  obtain ⟨M, eM, hM⟩ := C18_covariance l h2 ((List.range d).map (fun (i : Nat) =>
      mean (l.map (fun x => (v x).getD i 0)))) d v (by simp) (by
    intro x hx
    refine ⟨hcont x hx, hv.width x hx, ?_⟩
    rw [contSize_ok x (v x) (hv.rows x hx), hv.width x hx])
  have hget : ∀ i, i < d → ((List.range d).map (fun (i : Nat) =>
      mean (l.map (fun x => (v x).getD i 0)))).getD i 0 = mean (l.map (fun x => (v x).getD i 0)) := by
    intro i hi
    simp [List.getD_eq_getElem?_getD, hi]
  have hM' : ∀ i j, i < d → j < d → M i j =
      (l.map (fun x => ((v x).getD i 0 - mean (l.map (fun x => (v x).getD i 0))) *
        ((v x).getD j 0 - mean (l.map (fun x => (v x).getD j 0))))).sum / ((l.length : ℝ) - 1) := by
    intro i j hi hj
    rw [hM i j hi hj, hget i hi, hget j hj]
  refine ⟨M, fun i j hi hj => hM' i j hi hj, ?_⟩
  intro es ev hes hb hk
  have htrain : pcaTrain characteristics l k = .ok (es.take k) := by
    unfold pcaTrain
    rw [havg]
    simp only [res_bind_ok]
    rw [eM]
    simp only [res_bind_ok, hes]
    unfold mostImportantK
    rw [if_pos (by rw [hb.number]; exact hk)]
  have hone : ∀ x ∈ l, pcaInstance (es.take k) x = .ok { x with attrs := (es.take k).map (fun e => .continuous (inner d (v x) e)) } := by
    intro x hx
    unfold pcaInstance
    rw [hcont x hx]
    simp only [res_bind_ok, res_pure]
    rw [pcaFold_ok d (v x) (hv.width x hx) (es.take k)
      (fun e he => hb.size e (List.mem_of_mem_take he))]
    simp [Inst.removeAllAttributes]
  obtain ⟨h', e, hch⟩ := convertAll_ok (pcaInstance (es.take k)) ds.refs h hnd (by
    intro r hr
    obtain ⟨x, hx, ex⟩ := hp.exists r hr
    exact ⟨x, _, ex, hone x hx⟩)
  refine ⟨h', ?_, hch.mono ?_, ?_⟩
  · unfold pca
    rw [deref_ok hp]
    simp only [res_bind_ok]
    rw [htrain]
    simp only [res_bind_ok]
    unfold convert
    rw [e]; rfl
  · intro r hr x y hx hy
    rw [hone x (hp.mem r hr x hx)] at hy
    cases hy
    exact ⟨rfl, rfl, rfl⟩
  · intro a b ha hbk
    rw [sampleCov_inner l v d M hM']
    have : ∀ i ∈ Finset.range d, (es.getD a []).getD i 0 *
        ∑ j ∈ Finset.range d, M i j * (es.getD b []).getD j 0 =
        ev b * ((es.getD a []).getD i 0 * (es.getD b []).getD i 0) := by
      intro i hi
      rw [hb.eigen b (by omega) i (Finset.mem_range.1 hi)]
      ring
    rw [Finset.sum_congr rfl this, ← Finset.mul_sum]
    have horth := hb.orthonormal a b (by omega) (by omega)
    unfold inner at horth
    rw [horth]
    by_cases hab : a = b
    · subst hab; simp
    · simp [hab]

/-- **C114.** The data definition is not updated: it keeps the old number of attributes. -/
theorem C114_definition_kept (F : Type) [Dbl F]
    (characteristics : Nat × (Nat → Nat → F) → Option (List (List F))) (k : Nat)
    (h h' : Heap F) (ds ds' : RefSet) (hr : pca characteristics k h ds = .ok (h', ds')) :
    ds' = ds := by
  unfold pca convert at hr
  simp only [bind_ok_iff] at hr
  obtain ⟨_, _, _, _, _, _, _, e, hr⟩ := hr
  cases e; cases hr; rfl

/-- two points on the diagonal -/
def exPcaHeap : Heap ℝ := [⟨"a", [.continuous 0], none⟩, ⟨"b", [.continuous 2], none⟩]

/-- non-trivial case: one column with values 0 and 2, variance 2, eigenvector (1) -/
example : PointTo exPcaHeap [0, 1] exPcaHeap ∧
    NumericRows exPcaHeap (fun x => (x.attrs.map (fun a => (contVal? a).getD 0))) 1 ∧
    IsEigenbasis 1 (fun _ _ => 2) [[1]] (fun _ => 2) := by
  refine ⟨List.Forall₂.cons (R := fun r x => exPcaHeap[r]? = some x) rfl
    (List.Forall₂.cons (R := fun r x => exPcaHeap[r]? = some x) rfl List.Forall₂.nil), ⟨?_, ?_⟩, ?_⟩
  · intro x hx
    simp only [exPcaHeap, List.mem_cons, List.not_mem_nil, or_false] at hx
    rcases hx with rfl | rfl <;> rfl
  · intro x hx
    simp only [exPcaHeap, List.mem_cons, List.not_mem_nil, or_false] at hx
    rcases hx with rfl | rfl <;> rfl
  · refine ⟨rfl, by simp, ?_, ?_⟩
    · intro a b ha hb
      have ha : a = 0 := by omega
      have hb : b = 0 := by omega
      subst ha hb
      simp [inner]
    · intro a ha i hi
      have ha : a = 0 := by omega
      have hi : i = 0 := by omega
      subst ha hi
      simp

end Verif
