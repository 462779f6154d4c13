import Verif.Props.TreeFile
import Verif.Spec.ModelFiles
import Verif.Props.SplitWitness

/-! # C148: models in the formats that the loaders understand -/

set_option linter.unusedSectionVars false

namespace Verif
open Dbl

variable {F : Type} [Dbl F]

/-! ## networks -/

theorem Mat.Same.mulRight {m m' : Mat F} (h : m.Same m') (v : List F) :
    m'.mulRight v = m.mulRight v := by
  unfold Mat.mulRight
  rw [h.cols, h.rows]
  by_cases hc : m.cols = v.length
  · rw [if_pos hc, if_pos hc]
    congr 1
    refine List.map_congr_left (fun i hi => ?_)
    congr 1
    unfold Mat.row
    rw [h.cols]
    exact List.map_congr_left (fun j hj => h.entries i j (List.mem_range.1 hi) (List.mem_range.1 hj))
  · rw [if_neg hc, if_neg hc]

theorem Mat.Same.mulLeft {m m' : Mat F} (h : m.Same m') (v : List F) :
    m'.mulLeft v = m.mulLeft v := by
  unfold Mat.mulLeft
  rw [h.cols, h.rows]
  by_cases hc : m.rows = v.length
  · rw [if_pos hc, if_pos hc]
    congr 1
    refine List.map_congr_left (fun i hi => ?_)
    congr 1
    unfold Mat.col
    rw [h.rows]
    exact List.map_congr_left (fun j hj => h.entries j i (List.mem_range.1 hj) (List.mem_range.1 hi))
  · rw [if_neg hc, if_neg hc]

theorem Mat.Same.mulRightR {m m' : Mat F} (h : m.Same m') (v : List F) :
    m'.mulRightR v = m.mulRightR v := by
  unfold Mat.mulRightR
  rw [h.mulRight]

theorem Mat.Same.hidden {m m' : Mat F} (h : m.Same m') (v : List F) (a : Activation) :
    calculateHidden v m' a = calculateHidden v m a := by
  unfold calculateHidden
  rw [h.mulRightR]

theorem netFile_restores {labels : List String} (d : Nat) (hw : ∀ l ∈ labels, Word l) :
    Restores (netRead []) (netFile labels d) (labels, (d : Int)) := by
  unfold netRead netFile
  refine (Restores.intLine none (labels.length : Int)).bind ?_
  refine (Restores.intLine none (d : Int)).bind ?_
  refine (Restores.use _).nil_bind ?_
  refine (labels_restores hw "" []).bind_nil ?_
  refine (Restores.use _).nil_bind ?_
  have := foldl_snd (fun x : String => x) (fun x => x) labels "" []
  simp only [List.map_id', List.nil_append] at this
  rw [this]
  exact Restores.pure _

theorem perc_restores {T : Txt F} {K : MatLib F (Mat F)} {copy : Mat F → Mat F}
    (hK : MatOk T K copy) {labels : List String} (d : Nat) (hw : ∀ l ∈ labels, Word l) {W : Mat F}
    (hs : W.Survives T) : Restores (percRead K []) (netFile labels d ++ K.matText W)
      ⟨labels, d, copy W⟩ := by
  unfold percRead
  refine (netFile_restores d hw).bind ?_
  exact (hK.mat _ hs).bind_nil (Restores.pure _)

theorem activation_restores (a : Activation) : Restores activationRead (line a.name) a := by
  unfold activationRead
  have hw : Word a.name := by cases a <;> exact ⟨by decide, by decide⟩
  refine (Restores.word "" hw).bind_nil ?_
  cases a
  · rw [if_neg (by decide), if_neg (by decide)]
    exact Restores.pure _
  · rw [if_pos (by decide)]
    exact Restores.pure _
  · rw [if_neg (by decide), if_pos (by decide)]
    exact Restores.pure _

/-- **C148**: a linear perceptron written in the loader's format is loaded into a new object as a
network with the same labels, number of inputs and weights, which makes the same predictions and
has the same probabilities. -/
theorem C148_perceptron (T : Txt F) (K : MatLib F (Mat F)) (copy : Mat F → Mat F)
    (hK : MatOk T K copy) (n : Net (Mat F)) (hw : ∀ l ∈ n.labels, Word l)
    (hs : n.weights.Survives T) :
    ∃ n' i, percRead K [] (In.ofText (percFile K n)) = .ok (n', i) ∧ n'.labels = n.labels ∧
      n'.d = n.d ∧ n.weights.Same n'.weights ∧
      ∀ x, netPredict n'.labels (percOutput n'.weights) x =
          netPredict n.labels (percOutput n.weights) x ∧
        netProbability n'.labels (percOutput n'.weights) x =
          netProbability n.labels (percOutput n.weights) x := by
  obtain ⟨i, e⟩ := (perc_restores hK n.d hw hs).file
  refine ⟨_, i, e, rfl, rfl, hK.same _, fun x => ?_⟩
  have : percOutput (copy n.weights) = percOutput n.weights := by
    funext v
    exact (hK.same n.weights).mulRightR v
  simp only [this, and_self]

/-- **C148**: the same for a multi-layer perceptron. -/
theorem C148_multilayer (T : Txt F) (K : MatLib F (Mat F)) (copy : Mat F → Mat F)
    (hK : MatOk T K copy) (n : Net (Two F)) (a : Activation) (hw : ∀ l ∈ n.labels, Word l)
    (h1 : n.weights.W.Survives T) (h2 : n.weights.V.Survives T) :
    ∃ n' i, mlpRead K [] (In.ofText (mlpFile K n a)) = .ok ((n', a), i) ∧ n'.labels = n.labels ∧
      n'.d = n.d ∧ n.weights.W.Same n'.weights.W ∧ n.weights.V.Same n'.weights.V ∧
      ∀ x, netPredict n'.labels (mlpOutput a n'.weights) x =
          netPredict n.labels (mlpOutput a n.weights) x ∧
        netProbability n'.labels (mlpOutput a n'.weights) x =
          netProbability n.labels (mlpOutput a n.weights) x := by
  have hr : Restores (mlpRead K []) (mlpFile K n a)
      (⟨n.labels, n.d, ⟨copy n.weights.W, copy n.weights.V⟩⟩, a) := by
    unfold mlpRead mlpFile
    rw [← List.append_assoc]
    refine (perc_restores hK n.d hw h1).bind ?_
    refine (hK.mat _ h2).bind ?_
    exact (activation_restores a).bind_nil (Restores.pure _)
  obtain ⟨i, e⟩ := hr.file
  refine ⟨_, i, e, rfl, rfl, hK.same _, hK.same _, fun x => ?_⟩
  have : mlpOutput a ⟨copy n.weights.W, copy n.weights.V⟩ = mlpOutput a n.weights := by
    funext v
    unfold mlpOutput forwardSingleHidden
    simp only [(hK.same n.weights.W).hidden, (hK.same n.weights.V).mulRightR]
  simp only [this, and_self]

theorem atR_map {α β : Type} (f : α → β) (l : List α) (i : Nat) :
    atR (l.map f) i = (atR l i).map f := by
  unfold atR
  rw [List.getElem?_map]
  cases l[i]? <;> rfl

theorem foldlM_congr {α β : Type} {f g : β → α → Res β} (l : List α) (b : β)
    (h : ∀ b a, f b a = g b a) : l.foldlM f b = l.foldlM g b := by
  have : f = g := by
    funext b a
    exact h b a
  rw [this]

theorem deepOutput_copy {copy : Mat F → Mat F} (h : ∀ m : Mat F, m.Same (copy m))
    (a : Activation) (ws : List (Mat F)) : deepOutput a (ws.map copy) = deepOutput a ws := by
  funext v
  unfold deepOutput
  rw [List.length_map]
  have e1 : ∀ b (k : Nat), deepOutputStep a (ws.map copy) v b k = deepOutputStep a ws v b k := by
    intro b k
    unfold deepOutputStep
    rw [atR_map]
    cases atR ws k with
    | error e => rfl
    | ok w =>
      show (calculateHidden _ (copy w) a >>= _) = (calculateHidden _ w a >>= _)
      rw [(h w).hidden]
  rw [foldlM_congr _ _ e1, atR_map]
  congr 1
  funext hb
  cases atR ws (ws.length - 1) with
  | error e => rfl
  | ok w => exact (h w).mulRightR hb

/-- **C148**: the same for a deep network with at least one matrix. -/
theorem C148_deep (T : Txt F) (K : MatLib F (Mat F)) (copy : Mat F → Mat F)
    (hK : MatOk T K copy) (n : Net (List (Mat F))) (a : Activation) (hw : ∀ l ∈ n.labels, Word l)
    (hs : ∀ m ∈ n.weights, m.Survives T) :
    ∃ n' i, deepRead K ⟨[], 0, []⟩ (In.ofText (deepFile K n a)) = .ok ((n', a), i) ∧
      n'.labels = n.labels ∧ n'.d = n.d ∧ List.Forall₂ Mat.Same n.weights n'.weights ∧
      ∀ x, netPredict n'.labels (deepOutput a n'.weights) x =
          netPredict n.labels (deepOutput a n.weights) x ∧
        netProbability n'.labels (deepOutput a n'.weights) x =
          netProbability n.labels (deepOutput a n.weights) x := by
  have hr : Restores (deepRead K ⟨[], 0, []⟩) (deepFile K n a)
      (⟨n.labels, n.d, n.weights.map copy⟩, a) := by
    unfold deepRead deepFile
    refine (netFile_restores n.d hw).bind ?_
    refine (Restores.int none _).bind ?_
    refine (Restores.use _).nil_bind ?_
    rw [show ((n.weights.length : Int) - 1 + 1).toNat = n.weights.length by omega]
    have hl := Restores.loop (body := deepReadStep K) (txt := K.matText)
      (g := fun s m => s ++ [copy m]) n.weights (fun _ => True) [] trivial (fun s _ m hm =>
        ⟨trivial, (hK.mat m (hs m hm)).bind_nil (Restores.pure _)⟩)
    rw [foldl_snoc_map, List.nil_append] at hl
    refine hl.bind ?_
    exact (activation_restores a).bind_nil (Restores.pure _)
  obtain ⟨i, e⟩ := hr.file
  refine ⟨_, i, e, rfl, rfl, ?_, fun x => ?_⟩
  · show List.Forall₂ Mat.Same n.weights (n.weights.map copy)
    rw [List.forall₂_map_right_iff]
    exact List.forall₂_same.2 (fun m _ => hK.same m)
  · simp only [deepOutput_copy hK.same, and_self]

/-! ## random classifier, discriminants -/

/-- **C148**: a random classifier written in the loader's format is loaded with its classes. -/
theorem C148_random (seed : Int) (labels : List String) (hw : ∀ l ∈ labels, Word l) :
    ∃ i, randomRead [] (In.ofText (randomFile seed labels)) = .ok (labels, i) := by
  have hr : Restores (randomRead []) (randomFile seed labels) labels := by
    unfold randomRead randomFile
    refine (Restores.int none seed).bind ?_
    refine (Restores.int none (labels.length : Int)).bind ?_
    refine (Restores.use _).nil_bind ?_
    refine (labels_restores hw "" []).bind_nil ?_
    have := foldl_snd (fun x : String => x) (fun x => x) labels "" []
    simp only [List.map_id', List.nil_append] at this
    rw [this]
    exact Restores.pure _
  exact hr.file

theorem foldl_emplace_snd {V W γ : Type} (f : W → V) (o : γ → String × W → γ) (l : List (String × W))
    (c : γ) (m : OMap V) (hl : (l.map Prod.fst).Pairwise (· < ·))
    (h : ∀ p ∈ m, ∀ q ∈ l, p.1 < q.1) :
    (l.foldl (fun (s : γ × OMap V) p => (o s.1 p, s.2.emplace p.1 (f p.2))) (c, m)).2 =
      m ++ l.map (fun p => (p.1, f p.2)) := by
  induction l generalizing m c with
  | nil => simp
  | cons p l ih =>
    rw [List.map_cons, List.pairwise_cons] at hl
    rw [List.foldl_cons, emplace_last m p.1 (f p.2) (fun q hq => h q hq p (by simp)), ih _ _ hl.2]
    · simp
    · intro q hq r hr
      rw [List.mem_append] at hq
      rcases hq with hq | hq
      · exact h q hq r (by simp [hr])
      · simp at hq
        subst hq
        exact hl.1 _ (List.mem_map_of_mem hr)

theorem lda_restores {T : Txt F} {L : MathLib F} (hL : LibOk T L) {m : Lda F}
    (h : m.Writable T) : Restores (Lda.read T L Lda.new) (ldaFile T L m) m := by
  have hk1 : m.w0.length = m.prior.size := by
    have := congrArg List.length h.w0Keys
    simpa [DD.getItems, OMap.keys, DD.size] using this
  have hk2 : m.w.length = m.prior.size := by
    have := congrArg List.length h.wKeys
    simpa [DD.getItems, OMap.keys, DD.size] using this
  have hw1 : ∀ p ∈ m.w0, Word p.1 := fun p hp =>
    h.labels _ (by rw [← h.w0Keys]; exact List.mem_map_of_mem hp)
  have hw2 : ∀ p ∈ m.w, Word p.1 := fun p hp =>
    h.labels _ (by rw [← h.wKeys]; exact List.mem_map_of_mem hp)
  have hs1 : (m.w0.map Prod.fst).Pairwise (· < ·) := by
    rw [h.w0Keys]
    exact h.prior.1
  have hs2 : (m.w.map Prod.fst).Pairwise (· < ·) := by
    rw [h.wKeys]
    exact h.prior.1
  unfold Lda.read ldaFile
  refine (hL.dd m.prior h.prior h.labels).bind ?_
  have l1 := Restores.loop (body := Lda.readWeightStep T)
    (txt := fun p : String × F => line p.1 ++ line (T.shown p.2))
    (g := fun s p => ((p.1, some p.2), s.2.emplace p.1 p.2))
    m.w0 (fun _ => True) (("", none), []) trivial (fun s _ p hp => ⟨trivial, by
      unfold Lda.readWeightStep
      refine (Restores.word s.1.1 (hw1 p hp)).bind ?_
      refine (Restores.double s.1.2 (h.w0 p hp)).bind_nil ?_
      exact (Restores.use _).nil_bind (Restores.pure _)⟩)
  rw [hk1] at l1
  refine Restores.bind l1 ?_
  have l2 := vecMap_restores hL hw2 h.w
    (m.w0.foldl (fun (s : (String × Option F) × OMap F) p => ((p.1, some p.2), s.2.emplace p.1 p.2))
      (("", none), [])).1.1
  rw [hk2] at l2
  refine Restores.bind_nil l2 ?_
  rw [foldl_emplace_snd (fun v : F => v) (fun _ p => (p.1, some p.2)) m.w0 ("", none) [] hs1 (by simp),
    foldl_emplace m.w _ [] hs2 (by simp)]
  simp only [List.nil_append, Prod.mk.eta, List.map_id']
  exact Restores.pure _

/-- **C148**: a linear discriminant written in the loader's format is loaded into a new object as
the same model. -/
theorem C148_lda (T : Txt F) (L : MathLib F) (hL : LibOk T L) (m : Lda F) (h : m.Writable T) :
    ∃ i, Lda.read T L Lda.new (In.ofText (ldaFile T L m)) = .ok (m, i) := (lda_restores hL h).file

theorem find?_map_snd {V W : Type} (f : V → W) (m : OMap V) (c : String) :
    OMap.find? (m.map (fun p => (p.1, f p.2)) : OMap W) c = (OMap.find? m c).map f := by
  induction m with
  | nil => rfl
  | cons p m ih =>
    obtain ⟨k, v⟩ := p
    simp only [OMap.find?, List.map_cons, List.lookup_cons] at ih ⊢
    cases (c == k)
    · exact ih
    · rfl

theorem qda_metric_copy {copy : Mat F → Mat F} (hs : ∀ m : Mat F, m.Same (copy m)) (m : Qda F) :
    Qda.metric ⟨m.prior, m.w0, m.w, m.W.map (fun p => (p.1, copy p.2))⟩ = m.metric := by
  funext x c
  unfold Qda.metric
  congr 1
  funext xi
  unfold findR
  rw [find?_map_snd]
  cases OMap.find? m.W c with
  | none => rfl
  | some W =>
    show (_ >>= _) = (_ >>= _)
    simp only [Option.map_some, res_bind_ok, (hs W).mulLeft]

/-- **C148**: a quadratic discriminant written in the loader's format is loaded into a new object
as a model that makes the same predictions. -/
theorem C148_qda (T : Txt F) (L : MathLib F) (hL : LibOk T L) (K : MatLib F (Mat F))
    (copy : Mat F → Mat F) (hK : MatOk T K copy) (m : Qda F) (h : m.Writable T) :
    ∃ m' i, Qda.read T L K Qda.new (In.ofText (qdaFile T L K m)) = .ok (m', i) ∧
      m'.prior = m.prior ∧ m'.w0 = m.w0 ∧ m'.w = m.w ∧ ∀ x, m'.predict x = m.predict x := by
  have hk : m.W.length = m.prior.size := by
    have := congrArg List.length h.WKeys
    simpa [DD.getItems, OMap.keys, DD.size] using this
  have hw : ∀ p ∈ m.W, Word p.1 := fun p hp =>
    h.lda.labels _ (by show p.1 ∈ m.prior.getItems; rw [← h.WKeys]; exact List.mem_map_of_mem hp)
  have hs : (m.W.map Prod.fst).Pairwise (· < ·) := by
    rw [h.WKeys]
    exact h.lda.prior.1
  have hr : Restores (Qda.read T L K Qda.new) (qdaFile T L K m)
      ⟨m.prior, m.w0, m.w, m.W.map (fun p => (p.1, copy p.2))⟩ := by
    unfold Qda.read qdaFile
    refine (lda_restores hL h.lda).bind ?_
    have l1 := Restores.loop (body := Qda.readMatStep K)
      (txt := fun p : String × Mat F => line p.1 ++ K.matText p.2)
      (g := fun s p => (p.1, s.2.emplace p.1 (copy p.2)))
      m.W (fun _ => True) ("", []) trivial (fun s _ p hp => ⟨trivial, by
        unfold Qda.readMatStep
        refine (Restores.word s.1 (hw p hp)).bind ?_
        exact (hK.mat p.2 (h.W p hp)).bind_nil (Restores.pure _)⟩)
    rw [hk] at l1
    refine Restores.bind_nil l1 ?_
    rw [foldl_emplace_snd copy (fun _ p => p.1) m.W "" [] hs (by simp), List.nil_append]
    exact Restores.pure _
  obtain ⟨i, e⟩ := hr.file
  refine ⟨_, i, e, rfl, rfl, rfl, fun x => ?_⟩
  unfold Qda.predict
  rw [qda_metric_copy hK.same]

/-! ## instance lists, nearest neighbours, nearest mean -/

theorem joinWith_noNL (sep : String) (hsep : OneLine sep) (ws : List String)
    (h : ∀ w ∈ ws, OneLine w) : ∀ c ∈ (joinWith sep ws).toList, c ≠ '\n' := by
  have key : OneLine (joinWith sep ws) := by
    induction ws with
    | nil => simp [joinWith, OneLine]
    | cons a ws ih =>
      cases ws with
      | nil => exact h a (by simp)
      | cons b l =>
        have h1 := h a (by simp)
        have h2 := ih (fun w hw => h w (by simp [hw]))
        simp only [OneLine, joinWith, String.toList_append, List.mem_append] at *
        tauto
  intro c hc e
  exact key (e ▸ hc)

theorem readAttr_step {T : Txt F} (values : List String) (as : List (Attr F))
    (a : Attr F) (n : Nat) (hv : values[n]? = some (cellOf T a))
    (hk : (∃ v, a = .discrete v) ∨ ∃ v, a = .continuous v ∧ T.stof (T.toStr v) = .ok v) :
    readAttr T values as (typeWord a, n) = .ok (as ++ [a]) := by
  have hi : idxR values n = .ok (cellOf T a) := idxR_eq_ok.2 hv
  rcases hk with ⟨v, rfl⟩ | ⟨v, rfl, hs⟩
  · simp only [readAttr, typeWord, if_true, hi, res_bind_ok]
    rfl
  · have hne : ("CONTINUOUS" : String) ≠ "DISCRETE" := by decide
    simp only [readAttr, typeWord, if_true, if_neg hne, hi, res_bind_ok]
    rw [show cellOf T (Attr.continuous v) = T.toStr v from rfl, hs]
    rfl

theorem readAttrs {T : Txt F} (values : List String) (cells : List (Attr F)) :
    ∀ (as : List (Attr F)) (n : Nat),
    (∀ (j : Nat) (a : Attr F), cells[j]? = some a → values[n + j]? = some (cellOf T a)) →
    (∀ a ∈ cells, (∃ v, a = .discrete v) ∨ ∃ v, a = .continuous v ∧ T.stof (T.toStr v) = .ok v) →
    ((cells.map typeWord).zipIdx n).foldlM (readAttr T values) as = .ok (as ++ cells) := by
  induction cells with
  | nil => intro as n _ _; simp [res_pure]
  | cons a cells ih =>
    intro as n hv hk
    rw [List.map_cons, List.zipIdx_cons, List.foldlM_cons,
      readAttr_step values as a n (by simpa using hv 0 a rfl)
        (hk a (by simp)), res_bind_ok,
      ih (as ++ [a]) (n + 1) (fun j b hb => by
        have := hv (j + 1) b (by simpa using hb)
        rwa [show n + 1 + j = n + (j + 1) by omega]) (fun b hb => hk b (by simp [hb]))]
    simp

theorem fileRead_ok {T : Txt F} {words split : String → List String} (hwords : SplitsWords words)
    (hsplit : SplitsCommas (fun s _ => split s)) {types : List String} (hne : types ≠ [])
    {l : IList F} (hl : l ≠ []) (h : ∀ x ∈ l, x.RowOk T types) (c : Char) (rest : List Char) :
    IList.fileRead T words split ⟨c :: (listFile T types l ++ rest), false⟩ =
      .ok (l, ⟨rest, false⟩) := by
  have htypes : ∀ w ∈ types, Word w ∧ OneLine w := by
    obtain ⟨x, hx⟩ := List.exists_mem_of_ne_nil _ hl
    intro w hw
    have h1 := h x hx
    rw [← h1.types] at hw
    obtain ⟨a, ha, rfl⟩ := List.mem_map.1 hw
    rcases h1.kinds a ha with ⟨v, rfl⟩ | ⟨v, rfl, _⟩
    · exact ⟨⟨by simp [typeWord], by simp [typeWord, isBlank]⟩, by simp [OneLine, typeWord]⟩
    · exact ⟨⟨by simp [typeWord], by simp [typeWord, isBlank]⟩, by simp [OneLine, typeWord]⟩
  -- the rows
  have hrows : ∀ (l : IList F) (s : String × IList F) (rest : List Char),
      (∀ x ∈ l, x.RowOk T types) → ∃ ln,
      rdLoop (readInstStep T split types) l.length s ⟨l.flatMap (rowFile T) ++ rest, false⟩ =
        .ok ((ln, s.2 ++ l), ⟨rest, false⟩) := by
    intro l
    induction l with
    | nil => intro s rest _; exact ⟨s.1, by simp [rdLoop, rd_pure]⟩
    | cons x l ih =>
      intro s rest hx
      have h1 := hx x (by simp)
      obtain ⟨lab, attrs, poss⟩ := x
      have hcells : ∀ f ∈ attrs.map (cellOf T) ++ [lab], CellText f := by
        intro f hf
        rcases List.mem_append.1 hf with hf | hf
        · obtain ⟨a, ha, rfl⟩ := List.mem_map.1 hf
          exact h1.cells a ha
        · rw [List.mem_singleton.1 hf]
          exact h1.label
      have hsp : split (joinWith "," (attrs.map (cellOf T) ++ [lab])) =
          attrs.map (cellOf T) ++ [lab] :=
        hsplit _ (by simp) (fun f hf => ⟨(hcells f hf).nonempty, (hcells f hf).noComma⟩)
      have hstep : readInstStep T split types s
          ⟨rowFile T ⟨lab, attrs, poss⟩ ++ (l.flatMap (rowFile T) ++ rest), false⟩ =
          .ok ((joinWith "," (attrs.map (cellOf T) ++ [lab]),
            s.2 ++ [⟨lab, attrs, poss⟩]), ⟨l.flatMap (rowFile T) ++ rest, false⟩) := by
        unfold readInstStep
        have e1 := rdLine_ok s.1 (joinWith_noNL "," (by simp [OneLine]) _ (fun w hw => (hcells w hw).oneLine))
          (l.flatMap (rowFile T) ++ rest)
        rw [rd_bind, show rowFile T ⟨lab, attrs, poss⟩ ++ (l.flatMap (rowFile T) ++ rest) =
          (joinWith "," (attrs.map (cellOf T) ++ [lab])).toList ++
            '\n' :: (l.flatMap (rowFile T) ++ rest) by simp [rowFile, line], e1, res_bind_ok]
        simp only [String.ofList_toList]
        rw [hsp]
        have hty : types = attrs.map typeWord := h1.types.symm
        have e2 : (types.zipIdx.foldlM (readAttr T (attrs.map (cellOf T) ++ [lab])) []
            : Res _) = .ok attrs := by
          rw [hty]
          have := readAttrs (T := T) (attrs.map (cellOf T) ++ [lab]) attrs [] 0
            (fun j a ha => by
              rw [Nat.zero_add, List.getElem?_append_left (by
                have := (List.getElem?_eq_some_iff.1 ha).1
                simpa using this), List.getElem?_map, ha]
              rfl) h1.kinds
          simpa using this
        have e3 : (idxR (attrs.map (cellOf T) ++ [lab]) types.length : Res _) =
            .ok lab := by
          rw [idxR_eq_ok, hty]
          simp
        rw [e2, e3]
        have : poss = none := h1.plain
        subst this
        rfl
      obtain ⟨ln, e⟩ := ih (joinWith "," (attrs.map (cellOf T) ++ [lab]),
        s.2 ++ [⟨lab, attrs, poss⟩]) rest (fun y hy => hx y (by simp [hy]))
      refine ⟨ln, ?_⟩
      rw [List.length_cons, rdLoop, rd_bind, List.flatMap_cons, List.append_assoc, hstep, res_bind_ok]
      rw [e]
      simp
  unfold IList.fileRead listFile
  have e0 : rdIgnore ⟨c :: ((line (joinWith " " types) ++ (line (toString l.length) ++
      l.flatMap (rowFile T))) ++ rest), false⟩ = .ok ((), ⟨(joinWith " " types).toList ++
        '\n' :: (line (toString (l.length : Int)) ++ (l.flatMap (rowFile T) ++ rest)), false⟩) := by
    have : toString (l.length : Int) = toString l.length := rfl
    rw [this]
    simp [rdIgnore, line]
  rw [rd_bind, e0, res_bind_ok, rd_bind,
    rdLine_ok "" (joinWith_noNL " " (by simp [OneLine]) _ (fun w hw => (htypes w hw).2)), res_bind_ok, rd_bind]
  simp only [String.ofList_toList]
  rw [hwords types hne (fun w hw => (htypes w hw).1)]
  have e1 := rdInt_ok none (l.length : Int) (pre := []) (by simp [Blanks])
    (l.flatMap (rowFile T) ++ rest)
  rw [List.nil_append] at e1
  rw [e1, res_bind_ok, rd_bind]
  have e2 : rdIgnore ⟨'\n' :: (l.flatMap (rowFile T) ++ rest), false⟩ =
      .ok ((), ⟨l.flatMap (rowFile T) ++ rest, false⟩) := by simp [rdIgnore]
  rw [e2, res_bind_ok, rd_bind, use_some, res_bind_ok, rd_bind]
  obtain ⟨ln, e3⟩ := hrows l (joinWith " " types, []) rest h
  rw [Int.toNat_natCast, e3]
  simp [rd_pure, res_bind_ok]

/-- **C148**: a k-nearest-neighbour model written in the loader's format is loaded as the same
model, with the Euclidean distance. -/
theorem C148_knn (T : Txt F) (words split : String → List String) (hwords : SplitsWords words)
    (hsplit : SplitsCommas (fun s _ => split s)) (types : List String) (hne : types ≠ [])
    (k : Int) (l : IList F) (hl : l ≠ []) (h : ∀ x ∈ l, x.RowOk T types) :
    ∃ i, Knn.read T words split (In.ofText (line (toString k) ++ listFile T types l)) =
      .ok (⟨l, k, euclidean⟩, i) := by
  refine ⟨⟨[], false⟩, ?_⟩
  unfold Knn.read In.ofText
  have e1 := rdInt_ok none k (pre := []) (by simp [Blanks]) (listFile T types l)
  rw [List.nil_append] at e1
  have e2 := fileRead_ok hwords hsplit hne hl h '\n' []
  rw [List.append_nil] at e2
  rw [rd_bind, e1, res_bind_ok, rd_bind, e2]
  rfl

/-- **C148**: a nearest-mean model written in the loader's format is loaded as a model with the
same distribution and means and the Euclidean distance. (The reader of the distribution must
leave the end of its last line, as `>>` does.) -/
theorem C148_nearest_mean (T : Txt F) (L : MathLib F) (words split : String → List String)
    (hwords : SplitsWords words) (hsplit : SplitsCommas (fun s _ => split s)) (types : List String)
    (hne : types ≠ []) (d : DD)
    (hd : ∀ rest, L.ddRead ⟨L.ddText d ++ rest, false⟩ = .ok (d, ⟨'\n' :: rest, false⟩))
    (l : IList F) (hl : l ≠ []) (h : ∀ x ∈ l, x.RowOk T types) :
    ∃ i, KMeans.read T L words split (In.ofText (L.ddText d ++ listFile T types l)) =
      .ok (⟨d, l.map (fun x => (x.label, x.attrs.map some)), euclidean⟩, i) := by
  refine ⟨⟨[], false⟩, ?_⟩
  unfold KMeans.read In.ofText
  have e2 := fileRead_ok hwords hsplit hne hl h '\n' []
  rw [List.append_nil] at e2
  rw [rd_bind, hd, res_bind_ok, rd_bind, e2]
  rfl

/-! ## concrete cases -/

/-- matrices row by row: their entries -/
def matEntries (m : Mat F) : List F :=
  (List.range (m.rows * m.cols)).map (fun (k : Nat) => m.e (k / m.cols) (k % m.cols))

/-- a matrix with given entries -/
def matOf (r c : Nat) (l : List F) : Mat F := ⟨r, c, fun i j => l.getD (i * c + j) Dbl.zero⟩

/-- rows, columns, then the entries -/
def plainMatLib (T : Txt F) : MatLib F (Mat F) where
  matText m := line (toString m.rows) ++ (line (toString m.cols) ++
    (matEntries m).flatMap (fun x => line (T.shown x)))
  matRead := do
    let r ← rdInt none
    let c ← rdInt none
    let r ← use r
    let c ← use c
    let l ← rdLoop (plainVecStep T) (r.toNat * c.toNat) []
    pure (matOf r.toNat c.toNat l)

/-- the contract `MatOk` can be met -/
theorem plainMatLib_ok (T : Txt F) :
    MatOk T (plainMatLib T) (fun m => matOf m.rows m.cols (matEntries m)) where
  same m := by
    refine ⟨rfl, rfl, fun i j hi hj => ?_⟩
    have hlt : i * m.cols + j < m.rows * m.cols := by
      have : (i + 1) * m.cols ≤ m.rows * m.cols := Nat.mul_le_mul_right _ hi
      rw [Nat.add_mul, Nat.one_mul] at this
      omega
    have h1 : (i * m.cols + j) / m.cols = i := by
      rw [Nat.mul_comm, Nat.mul_add_div (by omega), Nat.div_eq_of_lt hj, Nat.add_zero]
    have h2 : (i * m.cols + j) % m.cols = j := by
      rw [Nat.mul_comm, Nat.mul_add_mod, Nat.mod_eq_of_lt hj]
    simp only [matOf, matEntries, List.getD_eq_getElem?_getD, List.getElem?_map,
      List.getElem?_range hlt, Option.map_some, Option.getD_some, h1, h2]
  mat m h := by
    simp only [plainMatLib]
    refine (Restores.int none (m.rows : Int)).bind ?_
    refine (Restores.int none (m.cols : Int)).bind ?_
    refine (Restores.use _).nil_bind ?_
    refine (Restores.use _).nil_bind ?_
    have hs : ∀ x ∈ matEntries m, Survives T x := by
      intro x hx
      obtain ⟨k, hk, rfl⟩ := List.mem_map.1 hx
      have hk := List.mem_range.1 hk
      have hc : 0 < m.cols := by
        rcases Nat.eq_zero_or_pos m.cols with h0 | h0
        · rw [h0] at hk; omega
        · exact h0
      refine h _ _ ?_ (Nat.mod_lt _ hc)
      rw [Nat.div_lt_iff_lt_mul hc]
      exact hk
    have hl := Restores.loop (body := plainVecStep T) (txt := fun x => line (T.shown x))
      (g := fun acc a => acc ++ [a]) (matEntries m) (fun _ => True) [] trivial (fun s _ x hx =>
        ⟨trivial, by
          unfold plainVecStep
          refine (Restores.double none (hs x hx)).bind_nil ?_
          exact (Restores.use _).nil_bind (Restores.pure _)⟩)
    rw [foldl_snoc, List.nil_append] at hl
    have hlen : (matEntries m).length = (m.rows : Int).toNat * (m.cols : Int).toNat := by
      simp [matEntries]
    rw [hlen] at hl
    exact hl.bind_nil (Restores.pure _)

/-- a perceptron with two classes and two inputs is loaded -/
example : ∃ n' i, percRead (plainMatLib intTxt) [] (In.ofText (percFile (plainMatLib intTxt)
    ⟨["no", "yes"], 2, ⟨2, 3, fun i j => .fin ((i : Int) - 2 * (j : Int) : Int)⟩⟩)) =
    .ok (n', i) ∧ n'.labels = ["no", "yes"] := by
  obtain ⟨n', i, e, h1, _⟩ := C148_perceptron intTxt (plainMatLib intTxt) _ (plainMatLib_ok _)
    ⟨["no", "yes"], 2, ⟨2, 3, fun i j => .fin ((i : Int) - 2 * (j : Int) : Int)⟩⟩ (by
      intro l hl
      simp only [List.mem_cons, List.not_mem_nil, or_false] at hl
      rcases hl with rfl | rfl <;> exact ⟨by decide, by decide⟩)
    (fun i j _ _ => survives_int _)
  exact ⟨n', i, e, h1⟩

/-- a linear discriminant that can be written -/
theorem exLda_writable : (⟨⟨[("a", 1), ("b", 2)], 3⟩, [("a", .fin 4), ("b", .fin (-2))],
    [("a", [.fin 1, .fin 0]), ("b", [.fin 5, .fin 7])]⟩ : Lda XR).Writable intTxt where
  prior := ⟨by decide, rfl⟩
  labels := by
    intro k hk
    have : k = "a" ∨ k = "b" := by simpa [DD.getItems, OMap.keys] using hk
    rcases this with rfl | rfl
    · exact ⟨by decide, by decide⟩
    · exact ⟨by decide, by decide⟩
  w0Keys := rfl
  wKeys := rfl
  w0 := by
    intro p hp
    simp only [List.mem_cons, List.not_mem_nil, or_false] at hp
    rcases hp with rfl | rfl
    · exact survives_int 4
    · exact survives_int (-2)
  w := by
    intro p hp x hx
    simp only [List.mem_cons, List.not_mem_nil, or_false] at hp
    rcases hp with rfl | rfl
    · simp only [List.mem_cons, List.not_mem_nil, or_false] at hx
      rcases hx with rfl | rfl
      · exact survives_int 1
      · exact survives_int 0
    · simp only [List.mem_cons, List.not_mem_nil, or_false] at hx
      rcases hx with rfl | rfl
      · exact survives_int 5
      · exact survives_int 7

/-- a quadratic discriminant that can be written -/
example : (⟨⟨[("a", 1), ("b", 2)], 3⟩, [("a", .fin 4), ("b", .fin (-2))],
    [("a", [.fin 1, .fin 0]), ("b", [.fin 5, .fin 7])],
    [("a", ⟨2, 2, fun i j => .fin ((i : Int) + j : Int)⟩), ("b", ⟨2, 2, fun _ _ => .fin (1 : Int)⟩)]⟩ :
      Qda XR).Writable intTxt where
  lda := exLda_writable
  WKeys := rfl
  W := by
    intro p hp
    simp only [List.mem_cons, List.not_mem_nil, or_false] at hp
    rcases hp with rfl | rfl
    · exact fun i j _ _ => survives_int _
    · exact fun i j _ _ => survives_int _

/-- rows that can be written -/
example : ∀ x ∈ ([⟨"yes", [.continuous (.fin 3), .discrete "red"], none⟩,
    ⟨"no", [.continuous (.fin (-1)), .discrete "blue"], none⟩] : IList XR),
    x.RowOk fileTxt ["CONTINUOUS", "DISCRETE"] := by
  have hc : ∀ s : String, s ∈ ["yes", "no", "red", "blue", "3", "-1"] → CellText s := by
    intro s hs
    simp only [List.mem_cons, List.not_mem_nil, or_false] at hs
    rcases hs with rfl | rfl | rfl | rfl | rfl | rfl <;>
      exact ⟨by decide, by decide, by simp [OneLine]⟩
  intro x hx
  simp only [List.mem_cons, List.not_mem_nil, or_false] at hx
  rcases hx with rfl | rfl
  · refine ⟨rfl, rfl, hc _ (by simp), ?_, ?_⟩
    · intro a ha
      simp only [List.mem_cons, List.not_mem_nil, or_false] at ha
      rcases ha with rfl | rfl
      · exact hc "3" (by simp)
      · exact hc "red" (by simp)
    · intro a ha
      simp only [List.mem_cons, List.not_mem_nil, or_false] at ha
      rcases ha with rfl | rfl
      · exact .inr ⟨_, rfl, fileTxt_stof 3⟩
      · exact .inl ⟨_, rfl⟩
  · refine ⟨rfl, rfl, hc _ (by simp), ?_, ?_⟩
    · intro a ha
      simp only [List.mem_cons, List.not_mem_nil, or_false] at ha
      rcases ha with rfl | rfl
      · exact hc "-1" (by simp)
      · exact hc "blue" (by simp)
    · intro a ha
      simp only [List.mem_cons, List.not_mem_nil, or_false] at ha
      rcases ha with rfl | rfl
      · exact .inr ⟨_, rfl, fileTxt_stof (-1)⟩
      · exact .inl ⟨_, rfl⟩

end Verif
