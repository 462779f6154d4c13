import Verif.Spec.Preprocess
import Verif.Props.Axes
import Verif.Props.TreeUnits
import Verif.Props.Pca

/-! # Property C222: filters that make no difference to a classifier -/

set_option linter.unusedSectionVars false

namespace Verif
open Dbl

theorem pointTo_changed {F : Type} {R : Inst F → Inst F → Prop} {h h' : Heap F} {refs : List Nat} {l : IList F} (g : Inst F → Inst F)
    (hp : PointTo h refs l) (hc : ∀ r ∈ refs, ∀ x, h[r]? = some x → ∃ y, h'[r]? = some y ∧ R x y)
    (hg : ∀ x ∈ l, ∀ y, R x y → y = g x) : PointTo h' refs (l.map g) := by
  unfold PointTo at hp ⊢
  induction hp with
  | nil => exact .nil
  | @cons r x refs l hr _ ih =>
    refine .cons ?_ (ih (fun r hr => hc r (by simp [hr])) (fun x hx => hg x (by simp [hx])))
    obtain ⟨y, h1, h2⟩ := hc r (by simp) x hr
    rw [← hg x (by simp) y h2]; exact h1

theorem normalised_of_mapped {l : IList ℝ} {x y : Inst ℝ}
    (h : NumbersMapped (fun i v => (v - mean (numbersAt l i)) / sampleSD (numbersAt l i)) x y) : y = normalisedLike l x := by
  have ha : y.attrs = (normalisedLike l x).attrs := by
    apply List.ext_getElem?
    intro i
    simp only [normalisedLike, List.getElem?_mapIdx]
    cases hx : x.attrs[i]? with
    | none =>
      have : x.attrs.length ≤ i := List.getElem?_eq_none_iff.1 hx
      rw [List.getElem?_eq_none_iff.2 (by rw [h.width]; exact this)]; rfl
    | some t =>
      cases t with
      | continuous v => rw [h.number i v hx]; rfl
      | discrete s => rw [h.other i _ hx (by simp [typeOf])]; rfl
      | binary s => rw [h.other i _ hx (by simp [typeOf])]; rfl
      | indexed s k m => rw [h.other i _ hx (by simp [typeOf])]; rfl
  obtain ⟨lab, as, ps⟩ := y
  have h1 := h.label
  have h2 := h.possible
  simp only at h1 h2 ha
  subst h1 h2
  rw [ha]; rfl

/-- the units normalising measures in -/
noncomputable def normScale (l : IList ℝ) (i : Nat) : ℝ :=
  if 0 < sampleSD (numbersAt l i) then 1 / sampleSD (numbersAt l i) else 1

theorem normScale_pos (l : IList ℝ) (i : Nat) : 0 < normScale l i := by
  unfold normScale
  split
  · positivity
  · exact one_pos

theorem normalised_units {ts : List AttrType} {l : IList ℝ} (hsd : NumbersDiffer ts l) {x : Inst ℝ} (hx : typesOf x = ts) :
    normalisedLike l x = inUnits (normScale l) (fun i => -(mean (numbersAt l i) * normScale l i)) x := by
  simp only [normalisedLike, inUnits, Inst.mk.injEq, true_and, and_true]
  apply List.ext_getElem?
  intro i
  simp only [List.getElem?_mapIdx]
  cases h : x.attrs[i]? with
  | none => rfl
  | some t =>
    cases t with
    | continuous v =>
      have ht : ts[i]? = some .continuous := by rw [← hx, typesOf, List.getElem?_map, h]; rfl
      have hp := hsd i ht
      simp only [Option.map_some, Attr.inUnits, normScale, if_pos hp]
      congr 2
      field_simp
      ring
    | discrete s => rfl
    | binary s => rfl
    | indexed s k m => rfl

theorem recode_units (a b : Nat → ℝ) (x : Inst ℝ) : recode a b (fun _ s => s) x = inUnits a b x := by
  simp only [recode, inUnits, Inst.mk.injEq, true_and, and_true]
  congr 1
  funext i t
  cases t <;> rfl

section
variable {h : Heap ℝ} {ds : RefSet} {l : IList ℝ}

/-- **C222.** `Normalize(ds).convert()` replaces every instance of the data set by its normalised one, and decision trees (with or
without pruning), stumps, bagging and random forests make no difference: trained on any part of the data set, they answer an
instance of its type after normalising as before, with the same class probabilities. All columns of numbers have different numbers. -/
theorem C222_normalize_trees (hp : PointTo h ds.refs l) (hnd : ds.refs.Nodup) (h2 : 2 ≤ l.length)
    (hc : ∀ x ∈ l, typesOf x = ds.definition.types) (hsd : NumbersDiffer ds.definition.types l) :
    ∃ h', normalize h ds = .ok (h', ds) ∧ PointTo h' ds.refs (l.map (normalisedLike l)) ∧
      ∀ part : IList ℝ, (∀ x ∈ part, x ∈ l) →
        (∀ pruning t, treeTrain part pruning = .ok t → ∃ t', treeTrain (part.map (normalisedLike l)) pruning = .ok t' ∧
          ∀ x, typesOf x = ds.definition.types → treePredict t' (normalisedLike l x) = treePredict t x ∧
            t'.predictProbability (normalisedLike l x) = t.predictProbability x) ∧
        (∀ t, stumpTrain part = .ok t → ∃ t', stumpTrain (part.map (normalisedLike l)) = .ok t' ∧
          ∀ x, typesOf x = ds.definition.types → treePredict t' (normalisedLike l x) = treePredict t x ∧
            t'.predictProbability (normalisedLike l x) = t.predictProbability x) ∧
        ∀ param draws size f, ensembleTrain param draws [] part size = .ok f →
          ∃ f', ensembleTrain param draws [] (part.map (normalisedLike l)) size = .ok f' ∧
          ∀ x, typesOf x = ds.definition.types → ensemblePredict f' (normalisedLike l x) = ensemblePredict f x ∧
            ensembleProbability f' (normalisedLike l x) = ensembleProbability f x := by
  obtain ⟨h', l', e, _, hch, _⟩ := C98_normalize h ds l hp hnd h2 hc
  refine ⟨h', e, pointTo_changed _ hp hch.changed (fun x _ y hy => normalised_of_mapped hy), fun part hpart => ?_⟩
  have hpt : ∀ x ∈ part, typesOf x = ds.definition.types := fun x hx => hc x (hpart x hx)
  have hre : ∀ x, typesOf x = ds.definition.types → normalisedLike l x =
      recode (normScale l) (fun i => -(mean (numbersAt l i) * normScale l i)) (fun _ s => s) x := by
    intro x hx; rw [recode_units]; exact normalised_units hsd hx
  have hmap : part.map (normalisedLike l) =
      part.map (recode (normScale l) (fun i => -(mean (numbersAt l i) * normScale l i)) (fun _ s => s)) :=
    List.map_congr_left (fun x hx => hre x (hpt x hx))
  rw [hmap]
  refine ⟨fun pruning t ht => ?_, fun t ht => ?_, fun param draws size f hf => ?_⟩
  · obtain ⟨t', e', ha⟩ := C156_tree_units part _ hpt (normScale l) (fun i => -(mean (numbersAt l i) * normScale l i)) (fun _ s => s)
      (normScale_pos l) (fun _ _ _ h => h) pruning t ht
    exact ⟨t', e', fun x hx => by rw [hre x hx]; exact ha x⟩
  · obtain ⟨t', e', ha⟩ := C156_stump_units part _ hpt (normScale l) (fun i => -(mean (numbersAt l i) * normScale l i)) (fun _ s => s)
      (normScale_pos l) (fun _ _ _ h => h) t ht
    exact ⟨t', e', fun x hx => by rw [hre x hx]; exact ha x⟩
  · obtain ⟨t', e', ha⟩ := C156_forest_units part _ hpt (normScale l) (fun i => -(mean (numbersAt l i) * normScale l i)) (fun _ s => s)
      (normScale_pos l) (fun _ _ _ h => h) param draws size f hf
    exact ⟨t', e', fun x hx => by rw [hre x hx]; exact ha x⟩

theorem numeric_types {n : Nat} {x : Inst ℝ} : Numeric n x → typesOf x = List.replicate n .continuous := by
  rintro ⟨u, h1, h2⟩
  unfold typesOf
  rw [h1, List.map_map, List.eq_replicate_iff]
  refine ⟨by simpa using h2, fun t ht => ?_⟩
  obtain ⟨v, _, rfl⟩ := List.mem_map.1 ht
  rfl

/-- **C222.** Naive Bayes and discriminant analysis on numbers make no difference either, trained on any part of the data set with
two instances or more of every class of the part. The conditions for discriminant analysis are those of C154. -/
theorem C222_normalize_parametric {n : Nat} (hn : 0 < n) (hp : PointTo h ds.refs l) (hnd : ds.refs.Nodup) (h2 : 2 ≤ l.length)
    (hty : ds.definition.types = List.replicate n .continuous) (hc : ∀ x ∈ l, Numeric n x) (hsd : NumbersDiffer ds.definition.types l)
    (inverse : Mat ℝ → Mat ℝ) (det : Mat ℝ → ℝ) (hsymm : ∀ S, IsSymm n S → IsSymm n (inverse S)) (hinv : Inverts n inverse)
    (hdet : ∀ S : Mat ℝ, S.rows = n → S.cols = n → det S = (asMatrix n S).det) :
    ∃ h', normalize h ds = .ok (h', ds) ∧ PointTo h' ds.refs (l.map (normalisedLike l)) ∧
      ∀ part : IList ℝ, (∀ x ∈ part, x ∈ l) → part ≠ [] → (∀ c ∈ part.map Inst.label, 2 ≤ classSize part c) →
        (∃ m m', NaiveBayes.train NaiveBayes.new part = .ok m ∧
          NaiveBayes.train NaiveBayes.new (part.map (normalisedLike l)) = .ok m' ∧
          ∀ x, Numeric n x → m'.predict (normalisedLike l x) = m.predict x) ∧
        ((Matrix.of fun i j : Fin n => pooledEntry part contValues n i j).det ≠ 0 →
          ∃ m m', Lda.train inverse Lda.new part = .ok m ∧ Lda.train inverse Lda.new (part.map (normalisedLike l)) = .ok m' ∧
          ∀ x, Numeric n x → x.possible = none →
            (∃ c ∈ part.map Inst.label, ∃ s, m.metric x c = .ok s ∧ -(2 : ℝ) ^ 1024 < s) →
            (∃ c ∈ part.map Inst.label, ∃ s, m'.metric (normalisedLike l x) c = .ok s ∧ -(2 : ℝ) ^ 1024 < s) →
            m'.predict (normalisedLike l x) = m.predict x) ∧
        ((∀ c ∈ part.map Inst.label, (Matrix.of fun i j : Fin n => scatter part contValues n c i j).det ≠ 0) →
          ∃ m m', Qda.train inverse det Qda.new part = .ok m ∧ Qda.train inverse det Qda.new (part.map (normalisedLike l)) = .ok m' ∧
          ∀ x, Numeric n x → x.possible = none →
            (∃ c ∈ part.map Inst.label, ∃ s, m.metric x c = .ok s ∧ -(2 : ℝ) ^ 1024 < s) →
            (∃ c ∈ part.map Inst.label, ∃ s, m'.metric (normalisedLike l x) c = .ok s ∧ -(2 : ℝ) ^ 1024 < s) →
            m'.predict (normalisedLike l x) = m.predict x) := by
  obtain ⟨h', l', e, _, hch, _⟩ := C98_normalize h ds l hp hnd h2 (fun x hx => by rw [hty]; exact numeric_types (hc x hx))
  refine ⟨h', e, pointTo_changed _ hp hch.changed (fun x _ y hy => normalised_of_mapped hy), fun part hpart hne htwo => ?_⟩
  have hre : ∀ x, Numeric n x → normalisedLike l x =
      inUnits (normScale l) (fun i => -(mean (numbersAt l i) * normScale l i)) x :=
    fun x hx => normalised_units hsd (by rw [hty]; exact numeric_types hx)
  have hnum : ∀ x ∈ part, Numeric n x := fun x hx => hc x (hpart x hx)
  have hmap : part.map (normalisedLike l) = part.map (inUnits (normScale l) (fun i => -(mean (numbersAt l i) * normScale l i))) :=
    List.map_congr_left (fun x hx => hre x (hnum x hx))
  have ha : ∀ i, normScale l i ≠ 0 := fun i => (normScale_pos l i).ne'
  rw [hmap]
  refine ⟨?_, fun hns => ?_, fun hns => ?_⟩
  · obtain ⟨m, m', h1, h2, h3⟩ := C153_naive_bayes_units part hne n hn hnum htwo (normScale l) _ ha
    exact ⟨m, m', h1, h2, fun x hx => by rw [hre x hx]; exact h3 x hx⟩
  · obtain ⟨m, m', h1, h2, h3⟩ := C154_lda_units ⟨hne, hnum, htwo⟩ inverse hsymm hinv hns (normScale l)
      (fun i => -(mean (numbersAt l i) * normScale l i)) ha
    exact ⟨m, m', h1, h2, fun x hx => by rw [hre x hx]; exact h3 x hx⟩
  · obtain ⟨m, m', h1, h2, h3⟩ := C154_qda_units ⟨hne, hnum, htwo⟩ inverse det hsymm hinv hdet hns (normScale l)
      (fun i => -(mean (numbersAt l i) * normScale l i)) ha
    exact ⟨m, m', h1, h2, fun x hx => by rw [hre x hx]; exact h3 x hx⟩

/-! ## principal components -/

/-- the directions as the rows of a matrix -/
def rowsOf (d : Nat) (es : List (List ℝ)) : Matrix (Fin d) (Fin d) ℝ := Matrix.of fun i j => (es.getD i []).getD j 0

theorem rowsOf_orth {d : Nat} {M : Nat → Nat → ℝ} {es : List (List ℝ)} {ev : Nat → ℝ} (he : IsEigenbasis d M es ev) :
    (rowsOf d es).transpose * rowsOf d es = (1 : ℝ) ^ 2 • (1 : Matrix (Fin d) (Fin d) ℝ) := by
  rw [one_pow, one_smul, mul_eq_one_comm]
  ext i j
  rw [Matrix.mul_apply]
  have := he.orthonormal i j i.2 j.2
  rw [inner, Finset.sum_range] at this
  simp only [rowsOf, Matrix.transpose_apply, Matrix.of_apply]
  rw [this, Matrix.one_apply]
  simp [Fin.ext_iff]

theorem numbersOf_values {n : Nat} {x : Inst ℝ} (hx : Numeric n x) : numbersOf x = contValues x := by
  obtain ⟨u, h1, h2⟩ := hx
  clear h2
  unfold numbersOf contValues
  rw [h1, List.filterMap_map, List.map_map]
  clear h1
  induction u with
  | nil => rfl
  | cons a u ih => rw [List.filterMap_cons, List.map_cons, ih]; rfl

theorem along_axes {d : Nat} {es : List (List ℝ)} (hd : es.length = d) {x : Inst ℝ} (hx : Numeric d x) :
    alongAll es x = inAxes (rowsOf d es) 0 x := by
  subst hd
  simp only [alongAll, inAxes, Inst.mk.injEq, true_and, and_true]
  apply List.ext_getElem
  · simp
  · intro i hi hi'
    have hl : i < es.length := by simpa using hi'
    rw [List.getElem_map, List.getElem_ofFn]
    congr 1
    rw [inner, Finset.sum_range]
    simp only [Matrix.mulVec, _root_.dotProduct, rowsOf, Matrix.of_apply, Pi.zero_apply, add_zero,
      numbersOf_values hx]
    refine Finset.sum_congr rfl (fun j _ => ?_)
    rw [contValues_vector hx j, mul_comm]
    congr 2
    rw [List.getD_eq_getElem?_getD, List.getElem?_eq_getElem (by omega)]; rfl

/-- **C222.** `Pca(ds, d).convert()` with all `d` components replaces every instance by its coordinates along the eigenvectors, and
nearest neighbours and nearest means with the Euclidean distance and discriminant analysis make no difference: trained on any part
of the data set, they answer after the conversion as before. The eigenvectors are those the matrix library returns for the
covariance matrix `M` of the data, an orthonormal basis; the conditions for discriminant analysis are those of C221. -/
theorem C222_pca {d : Nat} (characteristics : Nat × (Nat → Nat → ℝ) → Option (List (List ℝ))) (hp : PointTo h ds.refs l)
    (hnd : ds.refs.Nodup) (h2 : 2 ≤ l.length) (hc : ∀ x ∈ l, Numeric d x)
    (inverse : Mat ℝ → Mat ℝ) (det : Mat ℝ → ℝ) (hsymm : ∀ S, IsSymm d S → IsSymm d (inverse S)) (hinv : Inverts d inverse)
    (hdet : ∀ S : Mat ℝ, S.rows = d → S.cols = d → det S = (asMatrix d S).det) :
    ∃ M : Nat → Nat → ℝ,
      (∀ i j, i < d → j < d → M i j = sampleCov l (fun x => (numbersOf x).getD i 0) (fun x => (numbersOf x).getD j 0)) ∧
      ∀ es ev, characteristics (d, M) = some es → IsEigenbasis d M es ev →
      ∃ h', pca characteristics d h ds = .ok (h', ds) ∧ PointTo h' ds.refs (l.map (alongAll es)) ∧
        ∀ part : IList ℝ, (∀ x ∈ part, x ∈ l) →
          (∀ (k : Int) (x : Inst ℝ), Numeric d x →
            Knn.predict ⟨part.map (alongAll es), k, euclidean⟩ (alongAll es x) = Knn.predict ⟨part, k, euclidean⟩ x ∧
            Knn.predictProbability ⟨part.map (alongAll es), k, euclidean⟩ (alongAll es x) =
              Knn.predictProbability ⟨part, k, euclidean⟩ x) ∧
          (∀ old, ∃ m m', KMeans.train old part euclidean = .ok m ∧
            KMeans.train old (part.map (alongAll es)) euclidean = .ok m' ∧
            ∀ x, Numeric d x → x.possible = none →
              (∃ c ∈ part.map Inst.label, ∃ t, m.metric x c = .ok t ∧ -(2 : ℝ) ^ 1024 < t) →
              (∃ c ∈ part.map Inst.label, ∃ t, m'.metric (alongAll es x) c = .ok t ∧ -(2 : ℝ) ^ 1024 < t) →
              m'.predict (alongAll es x) = m.predict x) ∧
          (part ≠ [] → (∀ c ∈ part.map Inst.label, 2 ≤ classSize part c) →
            ((Matrix.of fun i j : Fin d => pooledEntry part contValues d i j).det ≠ 0 →
              ∃ m m', Lda.train inverse Lda.new part = .ok m ∧ Lda.train inverse Lda.new (part.map (alongAll es)) = .ok m' ∧
              ∀ x, Numeric d x → x.possible = none →
                (∃ c ∈ part.map Inst.label, ∃ s, m.metric x c = .ok s ∧ -(2 : ℝ) ^ 1024 < s) →
                (∃ c ∈ part.map Inst.label, ∃ s, m'.metric (alongAll es x) c = .ok s ∧ -(2 : ℝ) ^ 1024 < s) →
                m'.predict (alongAll es x) = m.predict x) ∧
            ((∀ c ∈ part.map Inst.label, (Matrix.of fun i j : Fin d => scatter part contValues d c i j).det ≠ 0) →
              ∃ m m', Qda.train inverse det Qda.new part = .ok m ∧ Qda.train inverse det Qda.new (part.map (alongAll es)) = .ok m' ∧
              ∀ x, Numeric d x → x.possible = none →
                (∃ c ∈ part.map Inst.label, ∃ s, m.metric x c = .ok s ∧ -(2 : ℝ) ^ 1024 < s) →
                (∃ c ∈ part.map Inst.label, ∃ s, m'.metric (alongAll es x) c = .ok s ∧ -(2 : ℝ) ^ 1024 < s) →
                m'.predict (alongAll es x) = m.predict x)) := by
  have hrows : NumericRows l numbersOf d :=
    ⟨fun x hx => by rw [numbersOf_values (hc x hx)]; exact (numeric_values (hc x hx)).1,
      fun x hx => by rw [numbersOf_values (hc x hx)]; exact (numeric_values (hc x hx)).2⟩
  obtain ⟨M, hM, hall⟩ := C114_pca characteristics d d h ds l numbersOf hp hnd h2 hrows
  refine ⟨M, hM, fun es ev hch he => ?_⟩
  obtain ⟨h', e, hchg, _⟩ := hall es ev hch he le_rfl
  have horth := rowsOf_orth he
  have hA : (rowsOf d es).det ≠ 0 := by
    rw [one_pow, one_smul] at horth
    have := congrArg Matrix.det horth
    rw [Matrix.det_mul, Matrix.det_transpose, Matrix.det_one] at this
    intro h0; rw [h0] at this; norm_num at this
  refine ⟨h', e, pointTo_changed _ hp hchg.changed (fun x hx y hy => ?_), fun part hpart => ?_⟩
  · obtain ⟨lab, as, ps⟩ := y
    obtain ⟨h1, h2, h3⟩ := hy
    simp only at h1 h2 h3
    subst h1 h2
    rw [h3, List.take_of_length_le (by rw [he.number]), alongAll, he.number]
  have hnum : ∀ x ∈ part, Numeric d x := fun x hx => hc x (hpart x hx)
  have hre : ∀ x, Numeric d x → alongAll es x = inAxes (rowsOf d es) 0 x := fun x hx => along_axes he.number hx
  have hmap : part.map (alongAll es) = part.map (inAxes (rowsOf d es) 0) :=
    List.map_congr_left (fun x hx => hre x (hnum x hx))
  rw [hmap]
  refine ⟨fun k x hx => ?_, fun old => ?_, fun hne htwo => ⟨fun hns => ?_, fun hns => ?_⟩⟩
  · rw [hre x hx]
    obtain ⟨_, _, _, h3, h4⟩ := C221_knn (rowsOf d es) 0 part k hnum 1 one_pos horth x hx
    exact ⟨h3, h4⟩
  · obtain ⟨m, m', h1, h2, h3⟩ := C221_nearest_mean (rowsOf d es) 0 part hnum old old 1 one_pos horth
    exact ⟨m, m', h1, h2, fun x hx => by rw [hre x hx]; exact h3 x hx⟩
  · obtain ⟨m, m', h1, h2, h3⟩ := C221_lda (rowsOf d es) 0 ⟨hne, hnum, htwo⟩ inverse hsymm hinv hns hA
    exact ⟨m, m', h1, h2, fun x hx => by rw [hre x hx]; exact h3 x hx⟩
  · obtain ⟨m, m', h1, h2, h3⟩ := C221_qda (rowsOf d es) 0 ⟨hne, hnum, htwo⟩ inverse det hsymm hinv hdet hns hA
    exact ⟨m, m', h1, h2, fun x hx => by rw [hre x hx]; exact h3 x hx⟩

end

/-! ## the hypotheses are met -/

theorem pointTo_self {F : Type} (l : IList F) : PointTo l (List.range l.length) l := by
  unfold PointTo
  rw [List.forall₂_iff_get]
  refine ⟨by simp, fun i hi hi' => ?_⟩
  simp only [List.get_eq_getElem, List.getElem_range]
  exact List.getElem?_eq_getElem _

/-- a colour and a number; a tree trained on both instances answers the first one after normalising as before -/
example : ∃ h' t t', normalize exNormHeap ⟨[0, 1], ⟨[.discrete, .continuous], []⟩⟩ = .ok (h', ⟨[0, 1], ⟨[.discrete, .continuous], []⟩⟩) ∧
    PointTo h' [0, 1] (exNormHeap.map (normalisedLike exNormHeap)) ∧ treeTrain exNormHeap none = .ok t ∧
    treeTrain (exNormHeap.map (normalisedLike exNormHeap)) none = .ok t' ∧
    ∀ x ∈ exNormHeap, treePredict t' (normalisedLike exNormHeap x) = treePredict t x := by
  have hty : ∀ x ∈ exNormHeap, typesOf x = [.discrete, .continuous] := by
    intro x hx
    simp only [exNormHeap, List.mem_cons, List.not_mem_nil, or_false] at hx
    rcases hx with rfl | rfl <;> rfl
  obtain ⟨h', e, hp, hall⟩ := C222_normalize_trees (h := exNormHeap) (ds := ⟨[0, 1], ⟨[.discrete, .continuous], []⟩⟩) (l := exNormHeap)
    (pointTo_self exNormHeap) (by simp) (by simp [exNormHeap]) hty (by
      intro i hi
      match i with
      | 0 => simp at hi
      | 1 =>
        have : numbersAt exNormHeap 1 = [1, 3] := rfl
        rw [this, sampleSD, Real.sqrt_pos]
        norm_num [sampleVar, mean]
      | i + 2 => simp at hi)
  obtain ⟨⟨t, ht, _⟩, _⟩ := C56_training_terminates (ts := [.discrete, .continuous]) (data := exNormHeap) (by simp [exNormHeap]) hty
  obtain ⟨t', ht', ha⟩ := (hall exNormHeap (fun x hx => hx)).1 none t ht
  exact ⟨h', t, t', e, hp, ht, ht', fun x hx => (ha x (hty x hx)).1⟩

/-- naive Bayes on four numbers -/
example : ∃ h' m m', normalize nbWitness ⟨[0, 1, 2, 3], ⟨[.continuous], []⟩⟩ = .ok (h', ⟨[0, 1, 2, 3], ⟨[.continuous], []⟩⟩) ∧
    NaiveBayes.train NaiveBayes.new nbWitness = .ok m ∧
    NaiveBayes.train NaiveBayes.new (nbWitness.map (normalisedLike nbWitness)) = .ok m' ∧
    ∀ x, Numeric 1 x → m'.predict (normalisedLike nbWitness x) = m.predict x := by
  obtain ⟨h', e, _, hall⟩ := C222_normalize_parametric (n := 1) one_pos (h := nbWitness)
    (ds := ⟨[0, 1, 2, 3], ⟨[.continuous], []⟩⟩) (l := nbWitness) (pointTo_self nbWitness) (by simp) (by simp [nbWitness]) rfl
    nbWitness_numeric (by
      intro i hi
      match i with
      | 0 =>
        have : numbersAt nbWitness 0 = [-1, 1, -9, 11] := rfl
        rw [this, sampleSD, Real.sqrt_pos]
        norm_num [sampleVar, mean]
      | i + 1 => simp at hi) inverse1 (fun S => (asMatrix 1 S).det) inverse1_symm inverse1_inverts (fun _ _ _ => rfl)
  obtain ⟨⟨m, m', h1, h2, h3⟩, _⟩ := hall nbWitness (fun x hx => hx) nbWitness_gauss.ne nbWitness_gauss.two
  exact ⟨h', m, m', e, h1, h2, h3⟩

/-- the diagonals of the plane -/
noncomputable def diagonals : List (List ℝ) := [[1 / Real.sqrt 2, 1 / Real.sqrt 2], [1 / Real.sqrt 2, -(1 / Real.sqrt 2)]]

theorem diagonals_basis {M : Nat → Nat → ℝ}
    (hM : ∀ i j, i < 2 → j < 2 → M i j = sampleCov plusSigns (fun x => (numbersOf x).getD i 0) (fun x => (numbersOf x).getD j 0)) :
    IsEigenbasis 2 M diagonals (fun a => if a = 0 then M 0 0 + M 0 1 else M 0 0 - M 0 1) := by
  have h11 : M 1 1 = M 0 0 := by
    rw [hM 1 1 (by omega) (by omega), hM 0 0 (by omega) (by omega)]
    simp [sampleCov, mean, plusSigns, pointIn, numbersOf]
    norm_num
  have h10 : M 1 0 = M 0 1 := by
    rw [hM 1 0 (by omega) (by omega), hM 0 1 (by omega) (by omega)]
    simp [sampleCov, mean, plusSigns, pointIn, numbersOf]
    norm_num
  have hs : (1 / Real.sqrt 2) * (1 / Real.sqrt 2) = 1 / 2 := by
    rw [div_mul_div_comm, Real.mul_self_sqrt (by norm_num)]; norm_num
  refine ⟨rfl, by simp [diagonals], ?_, ?_⟩
  · intro a b ha hb
    unfold diagonals
    generalize 1 / Real.sqrt 2 = r at hs
    interval_cases a <;> interval_cases b <;> simp [inner, Finset.sum_range_succ] <;> linarith
  · intro a ha i hi
    unfold diagonals
    generalize 1 / Real.sqrt 2 = r
    interval_cases a <;> interval_cases i <;> simp [Finset.sum_range_succ, h11, h10] <;> ring

/-- eight instances of the plane, described along the diagonals -/
example : ∃ h', pca (fun _ => some diagonals) 2 plusSigns ⟨List.range 8, ⟨[.continuous, .continuous], []⟩⟩ =
      .ok (h', ⟨List.range 8, ⟨[.continuous, .continuous], []⟩⟩) ∧
    PointTo h' (List.range 8) (plusSigns.map (alongAll diagonals)) ∧
    ∀ (k : Int) (x : Inst ℝ), Numeric 2 x →
      Knn.predict ⟨plusSigns.map (alongAll diagonals), k, euclidean⟩ (alongAll diagonals x) = Knn.predict ⟨plusSigns, k, euclidean⟩ x := by
  obtain ⟨M, hM, hall⟩ := C222_pca (d := 2) (h := plusSigns) (ds := ⟨List.range 8, ⟨[.continuous, .continuous], []⟩⟩) (l := plusSigns)
    (fun _ => some diagonals) (pointTo_self plusSigns) (List.nodup_range) (by simp [plusSigns]) plusSigns_numeric
    (inverseOf 2) (fun S => (asMatrix 2 S).det) (inverseOf_symm 2) (inverseOf_inverts 2) (fun _ _ _ => rfl)
  obtain ⟨h', e, hp, hk⟩ := hall diagonals _ rfl (diagonals_basis hM)
  exact ⟨h', e, hp, fun k x hx => ((hk plusSigns (fun x hx => hx)).1 k x hx).1⟩

/-! ## where it makes a difference -/

/-- three instances, the first one to be asked about -/
def farInUnits : Heap XR :=
  [⟨"?", [.continuous (.fin 0), .continuous (.fin 0)], none⟩, ⟨"a", [.continuous (.fin 13), .continuous (.fin 1)], none⟩,
   ⟨"b", [.continuous (.fin 11), .continuous (.fin 2)], none⟩]

/-- **C222, nearest neighbours depend on normalising**: the numbers of a column count as much as its unit makes them. The nearest
instance to the first is another one after normalising. -/
theorem C222_knn_depends : ∃ h', normalize farInUnits ⟨[0, 1, 2], ⟨[.continuous, .continuous], []⟩⟩ =
      .ok (h', ⟨[0, 1, 2], ⟨[.continuous, .continuous], []⟩⟩) ∧
    (farInUnits.head?.map (Knn.predict ⟨farInUnits.tail, 1, euclidean⟩)) = some (.ok "b") ∧
    (h'.head?.map (Knn.predict ⟨h'.tail, 1, euclidean⟩)) = some (.ok "a") := by
  refine ⟨_, rfl, ?_, ?_⟩ <;> decide +kernel

end Verif
