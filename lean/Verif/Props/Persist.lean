import Verif.Props.Stream
import Verif.Model.Persist

/-! # Models that are restored: sparse vectors, SVM data, dummy classifier, naive Bayes -/

set_option linter.unusedSectionVars false

namespace Verif
open Dbl

variable {F : Type} [Dbl F]

theorem Restores.intLine (old : Option Int) (n : Int) :
    Restores (rdInt old) (intLine n) (some n) := Restores.int old n

theorem snode_restores {T : Txt F} {n : SNode F} (h : Survives T n.value) :
    Restores (SNode.read T) (SNode.text T n) n := by
  refine (Restores.intLine none _).bind ?_
  refine (Restores.double none h).bind_nil ?_
  refine (Restores.use _).nil_bind ?_
  refine (Restores.use _).nil_bind ?_
  exact Restores.pure _

theorem nodes_restores {T : Txt F} {l : NodeL F} (h : ∀ n ∈ l, Survives T n.value) :
    Restores (NodeL.read T) (NodeL.text T l) l := by
  have hl : Restores (rdLoop (NodeL.readStep T) l.length []) (l.flatMap (SNode.text T))
      (l.foldl (fun acc a => acc ++ [a]) []) :=
    Restores.loop l (fun _ => True) [] trivial (fun s _ n hn =>
      ⟨trivial, (snode_restores (h n hn)).bind_nil (Restores.pure _)⟩)
  rw [foldl_snoc, List.nil_append] at hl
  refine (Restores.intLine none _).bind ?_
  exact (Restores.use _).nil_bind hl

/-- **C99**: a sparse vector whose numbers survive printing is read back from its text. -/
theorem C99_node_list (T : Txt F) (l : NodeL F) (h : ∀ n ∈ l, Survives T n.value) :
    ∃ i, NodeL.read T (In.ofText (NodeL.text T l)) = .ok (l, i) := (nodes_restores h).file

theorem foldl_snd {α β γ : Type} (o : α → γ) (w : α → β) (l : List α) (c : γ) (acc : List β) :
    (l.foldl (fun (s : γ × List β) a => (o a, s.2 ++ [w a])) (c, acc)).2 = acc ++ l.map w := by
  induction l generalizing c acc with
  | nil => simp
  | cons a l ih => rw [List.foldl_cons, ih]; simp

theorem double_step {T : Txt F} {x : F} (h : Survives T x) (s : Option F × List F) :
    Restores (Svm.readDoubleStep T s) (line (T.shown x)) (some x, s.2 ++ [x]) := by
  refine (Restores.double s.1 h).bind_nil ?_
  exact (Restores.use _).nil_bind (Restores.pure _)

theorem count_step (c : Nat) (s : Option Int × List Nat) :
    Restores (Svm.readCountStep s) (intLine c) (some (c : Int), s.2 ++ [c]) := by
  refine (Restores.intLine s.1 _).bind_nil ?_
  exact (Restores.use _).nil_bind (Restores.pure _)

theorem doubles_restores {T : Txt F} {l : List F} (h : ∀ x ∈ l, Survives T x) (o : Option F) :
    Restores (rdLoop (Svm.readDoubleStep T) l.length (o, [])) (l.flatMap (fun v => line (T.shown v)))
      (l.foldl (fun (s : Option F × List F) x => (some x, s.2 ++ [x])) (o, [])) :=
  Restores.loop l (fun _ => True) _ trivial (fun s _ x hx => ⟨trivial, double_step (h x hx) s⟩)

/-- the value of `value` after reading a list of coefficients -/
def lastOf {α : Type} (o : Option α) (l : List α) : Option α :=
  (l.foldl (fun (s : Option α × List α) x => (some x, s.2 ++ [x])) (o, [])).1

theorem coef_step {T : Txt F} {c : List F} (h : ∀ x ∈ c, Survives T x)
    (s : (Option Int × Option F) × List (List F)) :
    Restores (Svm.readCoefStep T s) (Svm.coefText T c)
      ((some (c.length : Int), lastOf s.1.2 c), s.2 ++ [c]) := by
  refine (Restores.intLine s.1.1 _).bind ?_
  refine (Restores.use _).nil_bind ?_
  refine (doubles_restores h s.1.2).bind_nil ?_
  have e := foldl_snd (fun x : F => some x) (fun x => x) c s.1.2 []
  have e2 : s.2 ++ [c] = s.2 ++
      [(c.foldl (fun (s : Option F × List F) x => (some x, s.2 ++ [x])) (s.1.2, [])).2] := by
    rw [e]
    simp
  rw [e2]
  exact Restores.pure _

theorem foldl_pair {α β γ : Type} (o : γ → α → γ) (w : α → β) (l : List α) (c : γ)
    (acc : List β) :
    (l.foldl (fun (s : γ × List β) a => (o s.1 a, s.2 ++ [w a])) (c, acc)).2 = acc ++ l.map w := by
  induction l generalizing c acc with
  | nil => simp
  | cons a l ih => rw [List.foldl_cons, ih]; simp

/-- the numbers of the machine survive printing, its distribution comes from counting, its
labels are words -/
structure Svm.Printable (T : Txt F) (m : Svm F) : Prop where
  dist : m.dist.Proper
  labels : ∀ k ∈ m.dist.getItems, Word k
  rho : ∀ r ∈ m.rho, Survives T r
  vectors : ∀ v ∈ m.supportVectors, ∀ n ∈ v, Survives T n.value
  coefs : ∀ c ∈ m.coefs, ∀ x ∈ c, Survives T x

theorem svm_restores {T : Txt F} {L : MathLib F} (hL : LibOk T L) {m : Svm F}
    (h : m.Printable T) : Restores (Svm.read T L) (m.text T L) { m with param := none } := by
  unfold Svm.read Svm.text
  refine (Restores.intLine none _).bind ?_
  refine (Restores.intLine none _).bind ?_
  refine (hL.dd m.dist h.dist h.labels).bind ?_
  refine (Restores.intLine none _).bind ?_
  refine (Restores.use _).nil_bind ?_
  refine (doubles_restores h.rho none).bind ?_
  refine (Restores.intLine _ _).bind ?_
  refine (Restores.use _).nil_bind ?_
  refine (Restores.loop m.svCounts (fun _ => True) _ trivial
    (fun s _ c _ => ⟨trivial, count_step c s⟩)).bind ?_
  refine (Restores.intLine _ _).bind ?_
  refine (Restores.use _).nil_bind ?_
  refine (Restores.loop m.supportVectors (fun _ => True) _ trivial
    (g := fun s v => s ++ [v]) (fun s _ v hv =>
      ⟨trivial, (nodes_restores (h.vectors v hv)).bind_nil (Restores.pure _)⟩)).bind ?_
  refine (Restores.intLine _ _).bind ?_
  refine (Restores.use _).nil_bind ?_
  refine (Restores.loop m.coefs (fun _ => True) _ trivial
    (fun s _ c hc => ⟨trivial, coef_step (h.coefs c hc) s⟩)).bind_nil ?_
  refine (Restores.use _).nil_bind ?_
  refine (Restores.use _).nil_bind ?_
  have e1 := foldl_snd (fun x : F => some x) (fun x => x) m.rho none []
  have e2 := foldl_snd (fun c : Nat => some (c : Int)) (fun x => x) m.svCounts none []
  have e3 := foldl_snoc m.supportVectors []
  have e4 := foldl_pair (fun (s : Option Int × Option F) (c : List F) =>
    (some (c.length : Int), lastOf s.2 c)) (fun x => x) m.coefs (none, none) []
  rw [e1, e2, e3, e4]
  simp only [List.map_id', List.nil_append, Int.toNat_natCast]
  exact Restores.pure _

/-- **C99**: a support vector machine whose numbers survive printing is read back from its
text, in everything but the training parameters (kernel and cost), which are not saved. -/
theorem C99_svm_data (T : Txt F) (L : MathLib F) (hL : LibOk T L) (m : Svm F)
    (h : m.Printable T) :
    ∃ i, Svm.read T L (In.ofText (m.text T L)) = .ok ({ m with param := none }, i) :=
  (svm_restores hL h).file

/-- **C99** (full statement refuted): no saved machine with a support vector is usable after
loading: predicting any instance with numeric attributes dereferences the uninitialised
parameter pointer. -/
theorem C99_refuted (T : Txt F) (L : MathLib F) (hL : LibOk T L) (m : Svm F)
    (h : m.Printable T) (hs : m.supportVectors ≠ []) (m' : Svm F) (i : In)
    (hr : Svm.read T L (In.ofText (m.text T L)) = .ok (m', i)) (x : Inst F) (n : NodeL F)
    (hx : x.toNodeList = .ok n) : ∃ s, m'.predict x = .error (.ub s) := by
  obtain ⟨j, e⟩ := C99_svm_data T L hL m h
  rw [e] at hr
  cases hr
  cases hv : m.supportVectors with
  | nil => exact absurd hv hs
  | cons v vs =>
    refine ⟨"uninitialised pointer", ?_⟩
    simp only [Svm.predict, hx, res_bind_ok, Svm.predictValues]
    rw [List.mapM_cons]
    rfl

/-- **C130**: a dummy classifier is read back from its text, whatever it was trained on, so it
predicts the same and has the same probabilities. -/
theorem C130_dummy_restored (T : Txt F) (L : MathLib F) (hL : LibOk T L) (d : DD)
    (hd : d.Proper) (hk : ∀ k ∈ d.getItems, Word k) :
    ∃ i, dummyRead L (In.ofText (dummyText L d)) = .ok (d, i) := (hL.dd d hd hk).file

/-! ## maps from labels to vectors -/

theorem emplace_last {V : Type} (m : OMap V) (k : String) (v : V) (h : ∀ p ∈ m, p.1 < k) :
    m.emplace k v = m ++ [(k, v)] := by
  have hn : m.find? k = none := by
    simp only [OMap.find?]
    rw [List.lookup_eq_none_iff]
    intro p hp
    have hlt := h p hp
    have : k ≠ p.1 := fun e => lt_irrefl p.1 (e ▸ hlt)
    simpa using this
  simp only [OMap.emplace, hn]
  exact insert_last m k v h

theorem foldl_emplace {V : Type} (l : List (String × V)) (c : String) (m : OMap V)
    (hl : (l.map Prod.fst).Pairwise (· < ·)) (h : ∀ p ∈ m, ∀ q ∈ l, p.1 < q.1) :
    (l.foldl (fun (s : String × OMap V) p => (p.1, s.2.emplace p.1 p.2)) (c, m)).2 = m ++ l := by
  induction l generalizing m c with
  | nil => simp
  | cons p l ih =>
    rw [List.map_cons, List.pairwise_cons] at hl
    rw [List.foldl_cons, emplace_last m p.1 p.2 (fun q hq => h q hq p (by simp)), ih _ _ hl.2]
    · simp
    · intro q hq r hr
      rw [List.mem_append] at hq
      rcases hq with hq | hq
      · exact h q hq r (by simp [hr])
      · simp at hq
        subst hq
        exact hl.1 _ (List.mem_map_of_mem hr)

theorem vecMap_restores {T : Txt F} {L : MathLib F} (hL : LibOk T L) {m : OMap (List F)}
    (hw : ∀ p ∈ m, Word p.1) (hv : ∀ p ∈ m, ∀ x ∈ p.2, Survives T x) (c : String) :
    Restores (rdLoop (readVecStep L) m.length (c, [])) (vecMapText L m)
      (m.foldl (fun (s : String × OMap (List F)) p => (p.1, s.2.emplace p.1 p.2)) (c, [])) :=
  Restores.loop m (fun _ => True) _ trivial (fun s _ p hp =>
    ⟨trivial, (Restores.word s.1 (hw p hp)).bind
      ((hL.vec p.2 (hv p hp)).bind_nil (Restores.pure _))⟩)

/-- a naive Bayes model as training on numeric attributes leaves it: one vector of means and one
of deviations for every class, all numbers surviving printing -/
structure NaiveBayes.Printable (T : Txt F) (m : NaiveBayes F) : Prop where
  prior : m.prior.Proper
  labels : ∀ k ∈ m.prior.getItems, Word k
  meanKeys : m.classMeans.map Prod.fst = m.prior.getItems
  deviationKeys : m.classDeviations.map Prod.fst = m.prior.getItems
  means : ∀ p ∈ m.classMeans, ∀ x ∈ p.2, Survives T x
  deviations : ∀ p ∈ m.classDeviations, ∀ x ∈ p.2, Survives T x
  continuous : m.classAttributeDistributions = []

/-- **C131**: a naive Bayes model of numeric attributes loaded into a new object is the model
that was saved; in particular it makes the same predictions. -/
theorem C131_naive_bayes_restored (T : Txt F) (L : MathLib F) (hL : LibOk T L) (m : NaiveBayes F)
    (h : m.Printable T) :
    ∃ m' i, NaiveBayes.read L NaiveBayes.new (In.ofText (m.text L)) = .ok (m', i) ∧ m' = m ∧
      ∀ x, m'.predict x = m.predict x := by
  have hk1 : m.classMeans.length = m.prior.size := by
    have := congrArg List.length h.meanKeys
    simpa [DD.getItems, OMap.keys, DD.size] using this
  have hk2 : m.classDeviations.length = m.prior.size := by
    have := congrArg List.length h.deviationKeys
    simpa [DD.getItems, OMap.keys, DD.size] using this
  have hw1 : ∀ p ∈ m.classMeans, Word p.1 := fun p hp =>
    h.labels _ (by rw [← h.meanKeys]; exact List.mem_map_of_mem hp)
  have hw2 : ∀ p ∈ m.classDeviations, Word p.1 := fun p hp =>
    h.labels _ (by rw [← h.deviationKeys]; exact List.mem_map_of_mem hp)
  have hs1 : (m.classMeans.map Prod.fst).Pairwise (· < ·) := by
    rw [h.meanKeys]
    exact h.prior.1
  have hs2 : (m.classDeviations.map Prod.fst).Pairwise (· < ·) := by
    rw [h.deviationKeys]
    exact h.prior.1
  have hr : Restores (NaiveBayes.read L NaiveBayes.new) (m.text L) m := by
    unfold NaiveBayes.read NaiveBayes.text
    refine (hL.dd m.prior h.prior h.labels).bind ?_
    have l1 := vecMap_restores hL hw1 h.means ""
    rw [hk1] at l1
    refine Restores.bind l1 ?_
    have l2 := vecMap_restores hL hw2 h.deviations
      (m.classMeans.foldl (fun (s : String × OMap (List F)) p => (p.1, s.2.emplace p.1 p.2)) ("", [])).1
    rw [hk2] at l2
    refine Restores.bind_nil l2 ?_
    rw [foldl_emplace m.classMeans "" [] hs1 (by simp), foldl_emplace m.classDeviations _ [] hs2 (by simp)]
    have : m = ⟨m.prior, m.classMeans, m.classDeviations, []⟩ := by
      rw [← h.continuous]
    rw [this]
    simpa [NaiveBayes.new] using Restores.pure
      (⟨m.prior, m.classMeans, m.classDeviations, []⟩ : NaiveBayes F)
  obtain ⟨i, e⟩ := hr.file
  exact ⟨m, i, e, rfl, fun _ => rfl⟩

end Verif
