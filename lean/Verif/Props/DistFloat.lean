import Verif.Props.Distance
import Verif.Props.SpreadFloat

/-! # Property C172: the Euclidean distance and one nearest neighbour in double precision -/

set_option linter.unusedSectionVars false

namespace Verif
open Dbl
variable {F : Type} [Dbl F] {L : CMath}

/-- the distance as a sum, in any arithmetic -/
theorem euclidean_foldl (x y : Inst F) (h : x.attrs.length ≤ y.attrs.length) :
    euclidean x y = .ok ((x.attrs.zip y.attrs).foldl (fun r p => euclidStep r p.1 p.2) (Dbl.ofInt 0)) := by
  unfold euclidean
  have key : ∀ (l : List (Attr F)) (k : Nat) (r : F), k + l.length ≤ y.attrs.length →
      (l.zipIdx k).foldlM (fun result p => do
        let b ← y.getAttribute p.2
        (pure (euclidStep result p.1 b) : Res F)) r =
      .ok ((l.zip (y.attrs.drop k)).foldl (fun r p => euclidStep r p.1 p.2) r) := by
    intro l
    induction l with
    | nil => intro k r _; simp
    | cons a l ih =>
      intro k r hk
      simp only [List.length_cons] at hk
      have hlt : k < y.attrs.length := by omega
      rw [List.zipIdx_cons, List.foldlM_cons, Inst.getAttribute, atR_ok_of_lt hlt]
      simp only [res_bind_ok, res_pure]
      rw [List.drop_eq_getElem_cons hlt, List.zip_cons_cons, List.foldl_cons]
      exact ih (k + 1) (euclidStep r a y.attrs[k]) (by omega)
  have := key x.attrs 0 (Dbl.ofInt 0) (by simpa using h)
  rw [List.drop_zero] at this
  exact this

/-- all numbers of an instance are finite -/
def FiniteNumbers (x : Inst (D53 L)) : Prop :=
  ∀ v : D53 L, Attr.continuous v ∈ x.attrs → ∃ q : ℚ, v.val = .fin q

theorem euclid_loop (hL : SignCorrect L) : ∀ (ps : List (Attr (D53 L) × Attr (D53 L))) (s : D53 L) (q : ℚ), D53.Is s q → 0 ≤ q →
    (∀ p ∈ ps, SameKind p.1 p.2 ∧ (∀ v, p.1 = .continuous v → ∃ q : ℚ, v.val = .fin q) ∧
      (∀ v, p.2 = .continuous v → ∃ q : ℚ, v.val = .fin q)) →
    ∃ q', D53.Is (ps.foldl (fun r p => euclidStep r p.1 p.2) s) q' ∧ 0 ≤ q' ∧
      (q' = 0 ↔ q = 0 ∧ ∀ p ∈ ps, (p.1.isContinuous = true ∨ p.1.isDiscrete = true) → p.1 = p.2) := by
  intro ps
  induction ps with
  | nil => intro s q hs h0 _; exact ⟨q, hs, h0, by simp⟩
  | cons p ps ih =>
    intro s q hs h0 hp
    obtain ⟨hk, hf1, hf2⟩ := hp p (by simp)
    obtain ⟨a, b⟩ := p
    have step : ∃ g, D53.Is (euclidStep s a b) g ∧ 0 ≤ g ∧
        (g = 0 ↔ q = 0 ∧ ((a.isContinuous = true ∨ a.isDiscrete = true) → a = b)) := by
      cases a <;> cases b <;> simp only [SameKind] at hk
      case discrete.discrete v w =>
        have es : euclidStep s (.discrete v) (.discrete w) = if v ≠ w then s +. ofInt 1 else s := rfl
        rw [es]
        by_cases hvw : v = w
        · rw [if_neg (not_not.2 hvw)]
          exact ⟨q, hs, h0, by simp [hvw]⟩
        · rw [if_pos hvw]
          have i1 : D53.Is (Dbl.ofInt 1 : D53 L) 1 := D53.is_one
          refine ⟨_, hs.add i1, D53.rnd_nonneg (by linarith), ?_⟩
          rw [D53.rnd_eq_zero]
          constructor
          · intro h; linarith
          · rintro ⟨_, h⟩
            exact absurd (by simpa [Attr.isDiscrete] using h (by simp [Attr.isDiscrete])) hvw
      case continuous.continuous v w =>
        obtain ⟨qv, ev⟩ := hf1 v rfl
        obtain ⟨qw, ew⟩ := hf2 w rfl
        obtain ⟨g, g1, g2, g3⟩ := hL.is_square (D53.Is.sub ev ew)
        refine ⟨_, hs.add g1, D53.rnd_nonneg (by linarith), ?_⟩
        rw [D53.rnd_eq_zero] at g3 ⊢
        constructor
        · intro h
          refine ⟨by linarith, fun _ => ?_⟩
          have : qv = qw := sub_eq_zero.1 (g3.1 (by linarith))
          subst this
          have hvw : v = w := D53.Is.ext ev ew
          rw [hvw]
        · rintro ⟨h1, h2⟩
          have hvw : v = w := by simpa using h2 (by simp [Attr.isContinuous])
          subst hvw
          have hq : qv = qw := D53.Is.unique ev ew
          rw [h1, g3.2 (by rw [hq, sub_self])]; norm_num
      all_goals exact ⟨q, hs, h0, by simp [Attr.isContinuous, Attr.isDiscrete]⟩
    obtain ⟨g, g1, g2, g3⟩ := step
    obtain ⟨q', k1, k2, k3⟩ := ih _ _ g1 g2 (fun p' hp' => hp p' (by simp [hp']))
    refine ⟨q', k1, k2, ?_⟩
    rw [k3, g3]
    simp only [List.mem_cons, forall_eq_or_imp]
    tauto

theorem sub_neg_val {v w : D53 L} {p q : ℚ} (hv : D53.Is v p) (hw : D53.Is w q) :
    ∃ z, D53.Is (v -. w) z ∧ D53.Is (w -. v) (-z) := by
  refine ⟨_, hv.sub hw, ?_⟩
  rw [← D53.rnd_neg, neg_sub]
  exact hw.sub hv

/-- **C172.** Euclidean distance in double precision: for instances of the same type with finite
numbers it is a number, not negative, 0 exactly when all continuous and plain discrete
attributes agree, and the same in both directions if the library's square of `-z` is that of
`z`. (Numbers so close that the square of their difference underflows are outside the
arithmetic considered.) -/
theorem C172_distance (hL : SignCorrect L) (x y : Inst (D53 L)) (h : List.Forall₂ SameKind x.attrs y.attrs)
    (hx : FiniteNumbers x) (hy : FiniteNumbers y) :
    ∃ (d : D53 L) (q : ℚ), euclidean x y = .ok d ∧ d.val = .fin q ∧ 0 ≤ q ∧
      (q = 0 ↔ ∀ p ∈ x.attrs.zip y.attrs, (p.1.isContinuous = true ∨ p.1.isDiscrete = true) → p.1 = p.2) ∧
      ((∀ z : ℚ, L.pow (.fin (-z)) 2 = L.pow (.fin z) 2) → euclidean y x = .ok d) := by
  have hlen := h.length_eq
  have hz := List.forall₂_iff_zip.1 h
  obtain ⟨q, k1, k2, k3⟩ := euclid_loop hL (x.attrs.zip y.attrs) (Dbl.ofInt 0) 0 (D53.is_zero (L := L)) le_rfl (by
    intro p hp
    obtain ⟨a, b⟩ := p
    refine ⟨hz.2 hp, ?_, ?_⟩
    · rintro v rfl; exact hx v (List.of_mem_zip hp).1
    · rintro v rfl; exact hy v (List.of_mem_zip hp).2)
  refine ⟨_, q, euclidean_foldl x y (by omega), k1, k2, ?_, ?_⟩
  · rw [k3]; simp
  · intro heven
    rw [euclidean_foldl y x (by omega)]
    congr 1
    have hstep : ∀ (a b : Attr (D53 L)), a ∈ x.attrs → b ∈ y.attrs → SameKind a b → ∀ r : D53 L,
        euclidStep r b a = euclidStep r a b := by
      intro a b ha hb hk r
      cases a <;> cases b <;> simp only [SameKind] at hk
      case discrete.discrete v w => simp [euclidStep, eq_comm]
      case continuous.continuous v w =>
        show r +. Dbl.pow (w -. v) 2 = r +. Dbl.pow (v -. w) 2
        obtain ⟨p, hp⟩ := hx v ha
        obtain ⟨q, hq⟩ := hy w hb
        obtain ⟨z, z1, z2⟩ := sub_neg_val hp hq
        have : (Dbl.pow (w -. v) 2 : D53 L) = Dbl.pow (v -. w) 2 := by
          apply D53.ext'
          show (L.pow (w -. v).val 2).rnd = (L.pow (v -. w).val 2).rnd
          rw [z1, z2, heven]
        rw [this]
      all_goals rfl
    have : ∀ (as bs : List (Attr (D53 L))), (∀ a ∈ as, a ∈ x.attrs) → (∀ b ∈ bs, b ∈ y.attrs) →
        List.Forall₂ SameKind as bs → ∀ r : D53 L,
        (bs.zip as).foldl (fun r p => euclidStep r p.1 p.2) r = (as.zip bs).foldl (fun r p => euclidStep r p.1 p.2) r := by
      intro as bs h1 h2 h3
      induction h3 with
      | nil => intro r; rfl
      | cons hk _ ih =>
        intro r
        simp only [List.zip_cons_cons, List.foldl_cons]
        rw [hstep _ _ (h1 _ (by simp)) (h2 _ (by simp)) hk]
        exact ih (fun a ha => h1 a (by simp [ha])) (fun b hb => h2 b (by simp [hb])) _
    exact this _ _ (fun _ h => h) (fun _ h => h) h _

/-- **C172.** One nearest neighbour with the Euclidean distance remembers the training data in double
precision too: for a plain instance whose continuous and discrete attributes are those of a
training instance it predicts the label `c` that the training instances with these attributes
have, with probability 1 (all numbers finite). -/
theorem C172_one_neighbour (hL : SignCorrect L) (data : IList (D53 L)) (x : Inst (D53 L)) (hx : x.isComposite = false)
    (hfin : ∀ y ∈ data, FiniteNumbers y) (hfx : FiniteNumbers x)
    (htypes : ∀ y ∈ data, List.Forall₂ SameKind y.attrs x.attrs)
    (hkinds : ∀ a ∈ x.attrs, a.isContinuous = true ∨ a.isDiscrete = true)
    (c : String) (hex : ∃ y ∈ data, y.attrs = x.attrs) (hc : ∀ y ∈ data, y.attrs = x.attrs → y.label = c) :
    (Knn.train ⟨[], 0, euclidean⟩ data 1 euclidean).predict x = .ok c ∧
    (Knn.train ⟨[], 0, euclidean⟩ data 1 euclidean).predictProbability x = .ok [(c, (Dbl.one : D53 L))] := by
  have hd : ∀ y ∈ data, ∃ (d : D53 L) (q : ℚ), euclidean y x = .ok d ∧ D53.Is d q ∧ 0 ≤ q ∧ (q = 0 ↔ y.attrs = x.attrs) := by
    intro y hy
    obtain ⟨d, q, h1, h2, h3, h4, _⟩ := C172_distance hL y x (htypes y hy) (hfin y hy) hfx
    refine ⟨d, q, h1, h2, h3, h4.trans ?_⟩
    have hz := List.forall₂_iff_zip.1 (htypes y hy)
    constructor
    · intro h
      refine List.ext_getElem hz.1 (fun i h1 h2 => ?_)
      have hm : (y.attrs[i], x.attrs[i]) ∈ y.attrs.zip x.attrs :=
        List.mem_iff_getElem.2 ⟨i, by simp [h1, h2], by simp⟩
      have hk := hz.2 hm
      have hx := hkinds _ (List.getElem_mem h2)
      refine h _ hm ?_
      simp only
      generalize y.attrs[i] = a at hk ⊢
      generalize x.attrs[i] = b at hk hx
      cases a <;> cases b <;> simp_all [SameKind, Attr.isContinuous, Attr.isDiscrete]
    · intro h p hp _
      rw [h] at hp
      obtain ⟨i, h1, h2⟩ := List.mem_iff_getElem.1 hp
      rw [← h2]
      simp
  have hd : ∀ y, ∃ (d : D53 L) (q : ℚ), y ∈ data → euclidean y x = .ok d ∧ D53.Is d q ∧ 0 ≤ q ∧ (q = 0 ↔ y.attrs = x.attrs) := by
    intro y
    by_cases hy : y ∈ data
    · obtain ⟨d, q, h⟩ := hd y hy; exact ⟨d, q, fun _ => h⟩
    · exact ⟨Dbl.one, 0, fun h => absurd h hy⟩
  choose d q hd' using hd
  have hd1 := fun y hy => (hd' y hy).1
  have hdq := fun y hy => (hd' y hy).2.1
  have hd2 := fun y hy => (hd' y hy).2.2.1
  have hd3 := fun y hy => (hd' y hy).2.2.2
  set m := Knn.train ⟨[], 0, euclidean⟩ data 1 euclidean with hm
  have hcand : candidates m.data x = data := by
    unfold candidates
    have : x.possible = none := by
      unfold Inst.isComposite at hx
      cases hp : x.possible with
      | none => rfl
      | some _ => rw [hp] at hx; cases hx
    rw [this]; rfl
  obtain ⟨ns, rest, h1, h2, h3, h4⟩ := C49_nearest m x d (by rw [hcand]; exact hd1) (fun y hy => by
    rw [hcand] at hy
    show (d y <=. d y) = true
    rw [(hdq y hy).le (hdq y hy)]; simp)
  rw [hcand] at h2 h3
  obtain ⟨y, hy, hyx⟩ := hex
  have hlen : ns.length = 1 := by
    rw [h3]
    have := List.length_pos_of_mem hy
    simp only [hm, Knn.train]
    show min 1 data.length = 1
    omega
  obtain ⟨a, ha⟩ := List.length_eq_one_iff.1 hlen
  subst ha
  have had : a ∈ data := h2.perm.mem_iff.1 (by simp)
  have hda : q a = 0 := by
    refine le_antisymm ?_ (hd2 a had)
    have hy0 : q y = 0 := (hd3 y hy).2 hyx
    rw [← hy0]
    rcases List.mem_append.1 (h2.perm.mem_iff.2 hy) with h | h
    · rw [List.mem_singleton.1 h]
    · have := h4 a (by simp) y h
      rw [(hdq a had).le (hdq y hy)] at this
      simpa using this
  have hac : a.label = c := hc a had ((hd3 a had).1 hda)
  constructor
  · obtain ⟨c', e, hmaj⟩ := (C50_vote m x [a] h1).1 (by simp)
    rw [e]
    have := hmaj.mem
    simp only [List.map_cons, List.map_nil, List.mem_singleton] at this
    rw [this, hac]
  · unfold Knn.predictProbability
    rw [h1]
    simp only [res_bind_ok, res_pure]
    rw [classDistribution_eq]
    simp only [List.map_cons, List.map_nil, hac]
    have := D53.div_self (L := L) (n := 1) (by norm_num)
    simp [DD.ofList, DD.addItem, DD.empty, DD.getProbabilityDistribution, Counter.put, OMap.find?, DD.getProbability,
      Counter.count, OMap.insert, this]

/-- the hypotheses are met: two training instances and a query equal to the second of them -/
example (L : CMath) (x : Inst (D53 L)) (hx : x = ⟨"?", [.continuous (tenth L), .discrete "v"], none⟩)
    (data : IList (D53 L)) (hd : data = [⟨"a", [.continuous (tenth L), .discrete "u"], none⟩,
      ⟨"b", [.continuous (tenth L), .discrete "v"], none⟩]) :
    x.isComposite = false ∧ (∀ y ∈ data, FiniteNumbers y) ∧ FiniteNumbers x ∧
    (∀ y ∈ data, List.Forall₂ SameKind y.attrs x.attrs) ∧ ∃ y ∈ data, y.attrs = x.attrs := by
  subst hx hd
  refine ⟨rfl, ?_, ?_, ?_, ⟨_, List.mem_cons_of_mem _ (List.mem_cons_self), rfl⟩⟩
  · intro y hy v hv
    simp only [List.mem_cons, List.not_mem_nil, or_false] at hy
    rcases hy with rfl | rfl <;>
    · simp only [List.mem_cons, Attr.continuous.injEq, List.not_mem_nil, or_false, reduceCtorEq] at hv
      rw [hv]; exact ⟨_, tenth_is⟩
  · intro v hv
    simp only [List.mem_cons, Attr.continuous.injEq, List.not_mem_nil, or_false, reduceCtorEq] at hv
    rw [hv]; exact ⟨_, tenth_is⟩
  · intro y hy
    simp only [List.mem_cons, List.not_mem_nil, or_false] at hy
    rcases hy with rfl | rfl <;> exact .cons trivial (.cons trivial .nil)

end Verif
