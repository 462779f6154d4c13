import Verif.Model.Shared
import Verif.Props.SoftTrain

/-! # C210: the one random generator of the process -/

namespace Verif
open Dbl

variable {F : Type} [Dbl F]

/-- the labels an answer is drawn from -/
def drawnFrom (labels : List String) (x : Inst F) : List String := if x.isComposite then x.possibleLabels else labels

/-! ## sequences of calls -/

theorem Generator.after_add (g : Generator) (j : Nat) : ∀ (k : Nat) (s : g.S), g.after (k + j) s = g.after j (g.after k s)
  | 0, s => by rw [Nat.zero_add]; rfl
  | k + 1, s => by rw [Nat.succ_add]; exact g.after_add j k (g.next s).2

theorem runCalls_append (g : Generator) : ∀ (cs ds : List (RandomCall F)) (s : g.S) (q : List (RandomAnswer F) × g.S),
    runCalls g s (cs ++ ds) = .ok q ↔ ∃ r t, runCalls g s cs = .ok r ∧ runCalls g r.2 ds = .ok t ∧ q = (r.1 ++ t.1, t.2)
  | [], ds, s, q => by
    constructor
    · intro h; exact ⟨([], s), q, rfl, h, rfl⟩
    · rintro ⟨r, t, h1, h2, rfl⟩
      cases h1
      exact h2
  | c :: cs, ds, s, q => by
    simp only [List.cons_append, runCalls, bind_ok_iff]
    constructor
    · rintro ⟨a, ha, b, hb, h⟩
      obtain ⟨r, t, h1, h2, rfl⟩ := (runCalls_append g cs ds a.2 b).1 hb
      cases h
      exact ⟨(a.1 :: r.1, r.2), t, ⟨a, ha, r, h1, rfl⟩, h2, rfl⟩
    · rintro ⟨r, t, ⟨a, ha, b, hb, h⟩, h2, rfl⟩
      cases h
      exact ⟨a, ha, (b.1 ++ t.1, t.2), (runCalls_append g cs ds a.2 _).2 ⟨b, t, hb, h2, rfl⟩, rfl⟩

theorem runCalls_length (g : Generator) : ∀ (cs : List (RandomCall F)) (s : g.S) (r : List (RandomAnswer F) × g.S),
    runCalls g s cs = .ok r → r.1.length = cs.length
  | [], s, r, h => by cases h; rfl
  | c :: cs, s, r, h => by
    simp only [runCalls, bind_ok_iff] at h
    obtain ⟨a, _, b, hb, h⟩ := h
    cases h
    simp [runCalls_length g cs a.2 b hb]

omit [Dbl F] in
theorem randomPredict_drawn {labels : List String} {x : Inst F} (h : drawnFrom labels x ≠ []) (r : Nat) :
    ∃ c, (drawnFrom labels x)[r % (drawnFrom labels x).length]? = some c ∧ randomPredict labels r x = .ok c := by
  have hl : 0 < (drawnFrom labels x).length := List.length_pos_iff.2 h
  have hlt := Nat.mod_lt r hl
  refine ⟨_, List.getElem?_eq_getElem hlt, ?_⟩
  unfold randomPredict
  show (if (drawnFrom labels x).length = 0 then _ else atR (drawnFrom labels x) (r % (drawnFrom labels x).length)) = _
  rw [if_neg (by omega)]
  unfold atR
  rw [List.getElem?_eq_getElem hlt]

/-- **C210** The answers of random classifiers are consecutive numbers of the generator of the process: question `i` of a
sequence is answered with the label at position (number `i` mod number of labels). Trained with whichever seed, they
share the numbers with all other random classifiers. -/
theorem C210_consecutive (g : Generator) (s : g.S) (asked : List (List String × Inst F))
    (h : ∀ q ∈ asked, drawnFrom q.1 q.2 ≠ []) :
    ∃ answers, runCalls g s (asked.map (fun q => RandomCall.ask q.1 q.2)) = .ok (answers, g.after asked.length s) ∧
      ∀ i labels x, asked[i]? = some (labels, x) →
        ∃ c, (drawnFrom labels x)[g.draw i s % (drawnFrom labels x).length]? = some c ∧ answers[i]? = some (.label c) := by
  induction asked generalizing s with
  | nil => exact ⟨[], rfl, by intro i labels x h; simp at h⟩
  | cons q asked ih =>
    obtain ⟨answers, e, hi⟩ := ih (g.next s).2 (fun q hq => h q (by simp [hq]))
    obtain ⟨c, h1, h2⟩ := randomPredict_drawn (h q (by simp)) (g.next s).1
    refine ⟨.label c :: answers, ?_, ?_⟩
    · simp only [List.map_cons, runCalls, RandomCall.run, h2, res_bind_ok, res_pure, e]
      rfl
    · intro i labels x hix
      cases i with
      | zero =>
        simp only [List.getElem?_cons_zero, Option.some.injEq] at hix
        subst hix
        exact ⟨c, h1, rfl⟩
      | succ i => exact hi i labels x hix

/-- the answer to a question asked after `n` others -/
def answerAfter (g : Generator) (s : g.S) (labels : List String) (n : Nat) (earlier x : Inst F) : Res (RandomAnswer F) :=
  (runCalls g s (List.replicate n (.ask labels earlier))).bind (fun r => ((RandomCall.ask labels x).run g r.2).map Prod.fst)

theorem answerAfter_eq (g : Generator) (s : g.S) {labels : List String} (n : Nat) {earlier x : Inst F}
    (he : earlier.isComposite = false) (hx : x.isComposite = false) (hl : labels ≠ []) :
    ∃ c, labels[g.draw n s % labels.length]? = some c ∧ answerAfter g s labels n earlier x = .ok (.label c) := by
  obtain ⟨a, h1, _⟩ := C210_consecutive g s (List.replicate n (labels, earlier)) (by
    intro q hq
    rw [(List.mem_replicate.1 hq).2]
    simpa [drawnFrom, he] using hl)
  have hd : drawnFrom labels x = labels := by simp [drawnFrom, hx]
  obtain ⟨c, h2, h3⟩ := randomPredict_drawn (labels := labels) (x := x) (by rw [hd]; exact hl) (g.draw n s)
  rw [hd] at h2
  refine ⟨c, h2, ?_⟩
  unfold answerAfter
  rw [List.map_replicate] at h1
  rw [h1]
  show ((RandomCall.ask labels x).run g (g.after (List.replicate n (labels, earlier)).length s)).map Prod.fst = _
  rw [List.length_replicate]
  show (randomPredict labels (g.draw n s) x >>= fun c => pure (RandomAnswer.label c, (g.next (g.after n s)).2)).map Prod.fst = _
  rw [h3]
  rfl

/-- **C210, earlier questions matter.** If numbers `m` and `n` of the generator are not congruent modulo the number of classes, then
a random classifier asked about an instance after `m` questions gives another answer than after `n`. -/
theorem C210_history_refuted (g : Generator) (s : g.S) {labels : List String} (hl : labels ≠ []) (hnd : labels.Nodup) (m n : Nat)
    (h : g.draw m s % labels.length ≠ g.draw n s % labels.length) (earlier x : Inst F)
    (he : earlier.isComposite = false) (hx : x.isComposite = false) :
    ∃ c c', c ≠ c' ∧ answerAfter g s labels m earlier x = .ok (.label c) ∧ answerAfter g s labels n earlier x = .ok (.label c') := by
  obtain ⟨c, h1, h2⟩ := answerAfter_eq g s m he hx hl
  obtain ⟨c', h3, h4⟩ := answerAfter_eq g s n he hx hl
  refine ⟨c, c', fun e => h ?_, h2, h4⟩
  subst e
  have hlen : 0 < labels.length := List.length_pos_iff.2 hl
  exact (hnd.getElem_inj_iff).1 ((List.getElem?_eq_some_iff.1 h1).2.trans (List.getElem?_eq_some_iff.1 h3).2.symm)

/-- **C210** Training a soft decision tree does not depend on the state of the generator, and neither does the state it leaves. -/
theorem C210_soft_tree (g : Generator) (s s' : g.S) (seed : Int) (param : SoftParam F) (fuel : Nat) (trainSet : IList F) :
    (RandomCall.grow seed param fuel trainSet).run g s = (RandomCall.grow seed param fuel trainSet).run g s' := rfl

/-- **C210, training a soft decision tree resets the generator.** Whatever two programs have done before, after they have trained a
soft decision tree with the same seed on the same data, all random classifiers answer alike, and all soft trees come out
alike. -/
theorem C210_reset (g : Generator) (s s' : g.S) (before before' rest : List (RandomCall F)) (seed : Int) (param : SoftParam F)
    (fuel : Nat) (trainSet : IList F) {a a' : List (RandomAnswer F)} {e e' : g.S}
    (h : runCalls g s (before ++ .grow seed param fuel trainSet :: rest) = .ok (a, e))
    (h' : runCalls g s' (before' ++ .grow seed param fuel trainSet :: rest) = .ok (a', e')) :
    a.drop before.length = a'.drop before'.length ∧ e = e' := by
  obtain ⟨r, t, h1, h2, h3⟩ := (runCalls_append g _ _ _ _).1 h
  obtain ⟨r', t', h1', h2', h3'⟩ := (runCalls_append g _ _ _ _).1 h'
  have : t = t' := by
    simp only [runCalls] at h2 h2'
    rw [C210_soft_tree g r.2 r'.2, h2'] at h2
    cases h2; rfl
  subst this
  cases h3; cases h3'
  rw [List.drop_left' (runCalls_length g _ _ _ h1), List.drop_left' (runCalls_length g _ _ _ h1')]
  exact ⟨rfl, rfl⟩

/-- `softTrainDraws` is `softTrain` with one more result -/
theorem softTrain_draws (param : SoftParam F) (fuel : Nat) (trainSet : IList F) :
    (softTrainDraws param fuel trainSet).map Prod.fst = softTrain param fuel trainSet := by
  unfold softTrainDraws softTrain
  cases trainSet.get 0 with
  | error e => rfl
  | ok x0 =>
    simp only [res_bind_ok]
    cases Parts.byRatioStratified trainSet param.ratio param.splitOrder with
    | error e => rfl
    | ok parts =>
      simp only [res_bind_ok]
      cases atR parts 0 with
      | error e => rfl
      | ok cv =>
        simp only [res_bind_ok]
        cases atR parts 1 with
        | error e => rfl
        | ok data =>
          simp only [res_bind_ok]
          cases softGrow trainSet.getDistinctClassLabels param cv fuel []
            ⟨.leaf (SoftData.fresh param.rand 0 trainSet.getDistinctClassLabels.length x0.attrs.length), data,
              freshDraws trainSet.getDistinctClassLabels.length x0.attrs.length⟩ <;> rfl

/-- **C210, how far it moves.** Training a soft decision tree on `K` classes and `d` numbers (under the hypotheses of C121) gives the
tree of `softTrain` for the numbers of the generator after `srand(seed)`, and leaves the generator
(2K + d + 1) (12 n + 7) numbers further, for a tree with `n` splits. -/
theorem C210_moves (g : Generator) (s : g.S) (seed : Int) (param : SoftParam ℝ) (trainSet : IList ℝ) (d : Nat) (hne : trainSet ≠ [])
    (hnum : ∀ x ∈ trainSet, AllNumbers d x) (hint : trainSet.length ≤ 2147483647)
    (hσ : IsPermutation param.splitOrder trainSet.length) (hshuffle : ∀ n, IsPermutation (param.shuffleOrder n) n)
    (hc : ∀ c ∈ trainSet.map Inst.label,
      ⌈param.ratio * (trainSet.map Inst.label).count c⌉₊ < (trainSet.map Inst.label).count c) :
    ∃ t : SoftTree ℝ, ∀ fuel, trainSet.length < fuel →
      softTrain { param with rand := fun k => (g.draw k (g.seed seed) : ℝ) / 2147483647 } fuel trainSet = .ok t ∧
      (RandomCall.grow seed param fuel trainSet).run g s =
        .ok (.tree t, g.after ((2 * t.labels.length + d + 1) * (12 * t.root.splits + 7)) (g.seed seed)) := by
  have hrand : (randomValue g (g.seed seed) : Nat → ℝ) = fun k => (g.draw k (g.seed seed) : ℝ) / 2147483647 := by
    funext k
    simp [randomValue]
  rw [← hrand]
  set param' : SoftParam ℝ := { param with rand := randomValue g (g.seed seed) } with hp'
  obtain ⟨held, grown, hparts, hheld, hgrown⟩ := split_parts trainSet param.ratio param.splitOrder hσ
  have hfo := C07_distinct_class_labels trainSet
  have hL := labels_ne_nil trainSet hne
  have hgl := grown_labels trainSet param.ratio param.splitOrder hσ hc held grown hparts
  obtain ⟨x0, l0, hx0⟩ := List.exists_cons_of_ne_nil hne
  have hgne : grown ≠ [] := by
    rintro rfl
    simpa using hgl x0.label (by rw [hx0]; simp)
  have hd : x0.attrs.length = d := by
    obtain ⟨u, hu⟩ := hnum x0 (by rw [hx0]; simp)
    rw [hu.2, List.length_map, hu.1]
  set labels := trainSet.getDistinctClassLabels with hlab
  have hsetting : ∀ l : IList ℝ, (∀ x ∈ l, x ∈ trainSet) → SoftSetting labels d l := fun l hl =>
    ⟨hfo.nodup, hL, fun x hx => hnum x (hl x hx), fun x hx => label_mem trainSet x (hl x hx)⟩
  have hK : grown.getDistinctClassLabels.length = labels.length := by
    have h2 := C07_distinct_class_labels grown
    refine ((List.perm_ext_iff_of_nodup h2.nodup hfo.nodup).2 ?_).length_eq
    intro c
    rw [h2.mem_iff, hfo.mem_iff]
    constructor
    · intro h
      obtain ⟨x, hx, rfl⟩ := List.mem_map.1 h
      exact List.mem_map_of_mem (hgrown x hx)
    · exact hgl c
  have hlen : held.length ≤ trainSet.length := by
    obtain ⟨p0, p1, h1, h2, _⟩ := C25_stratified_split trainSet param.ratio param.splitOrder hσ
    rw [hparts] at h1
    cases h1
    have := h2.length_eq
    rw [List.length_append] at this
    omega
  have hg : (SoftNode.leaf (SoftData.fresh param'.rand 0 labels.length d)).skel.get [] =
      some (.leaf (SoftData.fresh param'.rand 0 labels.length d).w0s) := rfl
  obtain ⟨s', m, h1, h2, h3, h4, h5, h6, h7⟩ := softGrow_ok param' hshuffle (hsetting held hheld) (hlen.trans hint)
    (hsetting grown hgrown) hgne hK (wrongPredictions labels (.leaf (SoftData.fresh param'.rand 0 labels.length d)) held + 1)
    (s := ⟨.leaf (SoftData.fresh param'.rand 0 labels.length d), grown, freshDraws labels.length d⟩)
    (fresh_sized _ _ _ _) hg (List.Perm.refl _) (Nat.lt_succ_self _)
  have hsp : s'.root.splits = m.splits := by
    rw [← skel_splits, h4]; rfl
  refine ⟨⟨labels, s'.root⟩, fun fuel hf => ?_⟩
  have hw := wrong_le labels (.leaf (SoftData.fresh param'.rand 0 labels.length d)) held
  have hrun := softGrow_mono _ _ _ _ _ _ _ h1 fuel (by omega)
  refine ⟨softTrain_eq param' fuel trainSet x0 l0 d held grown hx0 hd hparts s' hrun, ?_⟩
  have hdr : softTrainDraws param' fuel trainSet = .ok (⟨labels, s'.root⟩, s'.pos) := by
    have a0 : atR [held, grown] 0 = .ok held := rfl
    have a1 : atR [held, grown] 1 = .ok grown := rfl
    have a2 : trainSet.get 0 = .ok x0 := by rw [hx0]; rfl
    unfold softTrainDraws
    simp only [a2, res_bind_ok]
    rw [hparts, res_bind_ok, a0, res_bind_ok, a1, res_bind_ok, hd, hrun]
    rfl
  have hpos : s'.pos = (2 * labels.length + d + 1) * (12 * s'.root.splits + 7) := by
    rw [h7, hsp]
    simp only [freshDraws]
    ring
  show (softTrainDraws param' fuel trainSet).bind _ = _
  rw [hdr, ← hpos]
  rfl

/-! ## a generator -/

/-- the generator of the example in the C standard: `next = next * 1103515245 + 12345; return next / 65536 % 32768` -/
def standardGenerator : Generator where
  S := Nat
  seed n := n.toNat
  next s := ((s * 1103515245 + 12345) % 4294967296 / 65536 % 32768, (s * 1103515245 + 12345) % 4294967296)

/-- **C210 is false of it**: asked right away the answer is `a`, asked after two questions it is `b` -/
theorem C210_refuted : answerAfter standardGenerator (1 : Nat) ["a", "b"] 0 ⟨"?", [], none⟩ (⟨"?", [], none⟩ : Inst ℝ) = .ok (.label "a") ∧
    answerAfter standardGenerator (1 : Nat) ["a", "b"] 2 ⟨"?", [], none⟩ (⟨"?", [], none⟩ : Inst ℝ) = .ok (.label "b") := by
  constructor <;> rfl

/-! ## the hypotheses are met -/

/-- two classes, one number: 6 (12 n + 7) numbers are drawn -/
example (s : Nat) : ∃ t : SoftTree ℝ, ∀ fuel, 4 < fuel → (RandomCall.grow 7 softParam fuel fourPoints).run standardGenerator s =
    .ok (.tree t, standardGenerator.after ((2 * t.labels.length + 1 + 1) * (12 * t.root.splits + 7)) (7 : Nat)) := by
  have hcount : ∀ c ∈ fourPoints.map Inst.label, (fourPoints.map Inst.label).count c = 2 := by
    intro c hc
    simp only [fourPoints, List.map_cons, List.map_nil, List.mem_cons, List.not_mem_nil, or_false] at hc ⊢
    rcases hc with rfl | rfl | rfl | rfl <;> decide
  obtain ⟨t, h⟩ := C210_moves standardGenerator s 7 softParam fourPoints 1 (by simp [fourPoints]) fourPoints_numbers
    (by simp [fourPoints]) fourParam_perm (fun n => List.Perm.refl _) (by
      intro c hc
      rw [hcount c hc]
      have : ⌈softParam.ratio * ((2 : Nat) : ℝ)⌉₊ ≤ 1 := by
        rw [Nat.ceil_le]
        norm_num [softParam]
      omega)
  exact ⟨t, fun fuel hf => (h fuel hf).2⟩

/-- different remainders, as `C210_history_refuted` asks for -/
example : standardGenerator.draw 0 (1 : Nat) % 2 ≠ standardGenerator.draw 2 (1 : Nat) % 2 := by decide

end Verif
