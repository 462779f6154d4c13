import Verif.Props.TreePrune
import Verif.Lemmas.Rename

/-! # Property C201: the order of the trees of an ensemble does not matter -/

namespace Verif
open Dbl

variable {F : Type} [Dbl F]

theorem ensembleVotes_iff (forest : List (Node F)) (x : Inst F) (d : DD) :
    ensembleVotes forest x = .ok d ↔
      (∀ t ∈ forest, ∃ c, treePredict t x = .ok c) ∧
      d = DD.ofList (forest.map (fun t => ((treePredict t x).toOption.getD ""))) := by
  constructor
  · intro h
    have key : ∀ (l : List (Node F)) (d0 d : DD), l.foldlM (fun d t => do
        let p ← treePredict t x
        (pure (d.addItem p) : Res DD)) d0 = .ok d → ∀ t ∈ l, ∃ c, treePredict t x = .ok c := by
      intro l
      induction l with
      | nil => intro _ _ _ t ht; cases ht
      | cons a l ih =>
        intro d0 d h t ht
        rw [List.foldlM_cons, bind_ok_iff] at h
        obtain ⟨d1, h1, h⟩ := h
        rcases List.mem_cons.1 ht with rfl | ht
        · rw [bind_ok_iff] at h1
          obtain ⟨c, hc, _⟩ := h1
          exact ⟨c, hc⟩
        · exact ih d1 d h t ht
    have hall := key forest _ _ h
    refine ⟨hall, ?_⟩
    have e := ensembleVotes_ok (forest := forest) (x := x)
      (p := fun t => ((treePredict t x).toOption.getD "")) (fun t ht => by
        obtain ⟨c, hc⟩ := hall t ht
        rw [hc]; rfl)
    rw [h] at e
    exact Except.ok.inj e
  · rintro ⟨hall, rfl⟩
    exact ensembleVotes_ok (fun t ht => by
        obtain ⟨c, hc⟩ := hall t ht
        rw [hc]; rfl)

/-- **C201**: two ensembles with the same trees in another order give the same answers and the same class probabilities, for every
instance, and one of them fails if and only if the other fails. -/
theorem C201_order {forest forest' : List (Node F)} (hp : forest.Perm forest') (x : Inst F) :
    (∀ c, ensemblePredict forest x = .ok c ↔ ensemblePredict forest' x = .ok c) ∧
    ∀ p, ensembleProbability forest x = .ok p ↔ ensembleProbability forest' x = .ok p := by
  have hv : ∀ d, ensembleVotes forest x = .ok d ↔ ensembleVotes forest' x = .ok d := by
    intro d
    rw [ensembleVotes_iff, ensembleVotes_iff, DD.ofList_perm (hp.map _)]
    simp only [hp.mem_iff]
  refine ⟨fun c => ?_, fun p => ?_⟩
  · unfold ensemblePredict
    simp only [bind_ok_iff, hv]
  · unfold ensembleProbability
    simp only [bind_ok_iff, hv]

omit [Dbl F] in
theorem train_loop (f : Nat → Res (Node F)) : ∀ (is : List Nat) (old : List (Node F)),
    is.foldlM (fun forest i => do
      let t ← f i
      (pure (forest ++ [t]) : Res (List (Node F)))) old = (is.mapM f).map (old ++ ·) := by
  intro is
  induction is with
  | nil => intro old; simp [Except.map, pure, Except.pure]
  | cons i is ih =>
    intro old
    rw [List.foldlM_cons, List.mapM_cons]
    cases f i with
    | error e => rfl
    | ok t =>
      refine (ih (old ++ [t])).trans ?_
      rw [res_bind_ok]
      cases is.mapM f with
      | error e => rfl
      | ok ts => simp [Except.map, bind, Except.bind, pure, Except.pure]

theorem mapM_perm {α β : Type} (f : α → Res β) {l l' : List α} (hp : l.Perm l') :
    ∀ {r : List β}, l.mapM f = .ok r → ∃ r', l'.mapM f = .ok r' ∧ r.Perm r' := by
  induction hp with
  | nil => intro r h; exact ⟨r, h, .refl _⟩
  | cons a _ ih =>
    intro r h
    rw [List.mapM_cons, bind_ok_iff] at h
    obtain ⟨b, hb, h⟩ := h
    rw [bind_ok_iff] at h
    obtain ⟨bs, hbs, h⟩ := h
    cases h
    obtain ⟨r', h1, h2⟩ := ih hbs
    exact ⟨b :: r', by rw [List.mapM_cons, hb, res_bind_ok, h1]; rfl, h2.cons b⟩
  | swap a b l =>
    intro r h
    rw [List.mapM_cons, bind_ok_iff] at h
    obtain ⟨y, hy, h⟩ := h
    rw [List.mapM_cons, bind_ok_iff] at h
    obtain ⟨bs, hbs, h⟩ := h
    rw [bind_ok_iff] at hbs
    obtain ⟨z, hz, hbs⟩ := hbs
    rw [bind_ok_iff] at hbs
    obtain ⟨zs, hzs, hbs⟩ := hbs
    cases hbs
    cases h
    exact ⟨z :: y :: zs, by rw [List.mapM_cons, hz, res_bind_ok, List.mapM_cons, hy, res_bind_ok, hzs]; rfl, .swap _ _ _⟩
  | trans _ _ ih1 ih2 =>
    intro r h
    obtain ⟨r1, h1, p1⟩ := ih1 h
    obtain ⟨r2, h2, p2⟩ := ih2 h1
    exact ⟨r2, h2, p1.trans p2⟩

theorem mapM_same {α β : Type} {f g : α → Res β} : ∀ {l : List α}, (∀ a ∈ l, f a = g a) → l.mapM f = l.mapM g
  | [], _ => rfl
  | a :: l, h => by
    rw [List.mapM_cons, List.mapM_cons, h a (by simp), mapM_same (fun b hb => h b (by simp [hb]))]

/-- **C201**: an ensemble trained on the same samples in another order (`σ` lists the numbers of the samples) has the same trees in
another order; so it gives the same answers and the same class probabilities. -/
theorem C201_samples (param : Node.SubsetParam) (draws draws' : Nat → List Nat) (T : IList F) (B : Nat) (σ : List Nat)
    (hσ : (List.range B).Perm σ) (hd : ∀ i < B, draws' i = draws (σ.getD i 0)) {forest : List (Node F)}
    (h : ensembleTrain param draws [] T B = .ok forest) :
    ∃ forest', ensembleTrain param draws' [] T B = .ok forest' ∧ forest.Perm forest' ∧
      ∀ x, (∀ c, ensemblePredict forest x = .ok c ↔ ensemblePredict forest' x = .ok c) ∧
        ∀ p, ensembleProbability forest x = .ok p ↔ ensembleProbability forest' x = .ok p := by
  unfold ensembleTrain at h ⊢
  rw [Int.toNat_natCast] at h ⊢
  have e := train_loop (fun i => Node.grow param false ((T.bootstrap (draws i)).length + 1) (T.bootstrap (draws i)) Cond.root)
    (List.range B) []
  have e' := train_loop (fun i => Node.grow param false ((T.bootstrap (draws' i)).length + 1) (T.bootstrap (draws' i)) Cond.root)
    (List.range B) []
  have hlen : σ.length = B := by rw [← hσ.length_eq, List.length_range]
  have hs : (List.range B).mapM (fun i => Node.grow param false ((T.bootstrap (draws' i)).length + 1) (T.bootstrap (draws' i)) Cond.root) =
      σ.mapM (fun i => Node.grow param false ((T.bootstrap (draws i)).length + 1) (T.bootstrap (draws i)) Cond.root) := by
    have : σ = (List.range B).map (fun i => σ.getD i 0) := by
      apply List.ext_getElem
      · simp [hlen]
      · intro i h1 h2; simp [h1]
    conv_rhs => rw [this, List.mapM_map]
    refine mapM_same (fun i hi => ?_)
    simp only [Function.comp]
    rw [hd i (List.mem_range.1 hi)]
  rw [e] at h
  rw [e', hs]
  cases hm : (List.range B).mapM (fun i => Node.grow param false ((T.bootstrap (draws i)).length + 1) (T.bootstrap (draws i)) Cond.root) with
  | error e => rw [hm] at h; cases h
  | ok r =>
    rw [hm] at h
    cases h
    obtain ⟨r', h1, h2⟩ := mapM_perm _ hσ hm
    rw [h1]
    exact ⟨r', rfl, h2, fun x => C201_order h2 x⟩

/-- three samples of two instances of different classes, in two orders: the forests differ, the answers do not -/
example : ∃ f f' : List (Node XR),
    ensembleTrain none (fun i => if i = 0 then [0] else [1]) [] [⟨"b", [.discrete "u"], none⟩, ⟨"a", [.discrete "u"], none⟩] 3 = .ok f ∧
    ensembleTrain none (fun i => if i = 2 then [0] else [1]) [] [⟨"b", [.discrete "u"], none⟩, ⟨"a", [.discrete "u"], none⟩] 3 = .ok f' ∧
    f.map (treePredict · ⟨"", [.discrete "u"], none⟩) ≠ f'.map (treePredict · ⟨"", [.discrete "u"], none⟩) ∧
    ensemblePredict f ⟨"", [.discrete "u"], none⟩ = .ok "a" ∧ ensemblePredict f' ⟨"", [.discrete "u"], none⟩ = .ok "a" := by
  refine ⟨_, _, rfl, rfl, by decide +kernel, by decide +kernel, by decide +kernel⟩

end Verif
